import Verif.Spec.Nesting
import Verif.Lemmas.ValueYields

/-! # Every part of a value that is read costs at least a byte -/

namespace Souris

namespace Value

theorem partsList_append (a b : List Value) : partsList (a ++ b) = partsList a + partsList b := by
  induction a with
  | nil => simp [partsList]
  | cons v a ih => simp only [List.cons_append, partsList, ih]; omega

theorem partsEntries_eq (m : List (List Char × Value)) : partsEntries m = (m.map fun x => parts x.2).sum := by
  induction m with
  | nil => simp [partsEntries]
  | cons x m ih => obtain ⟨k, v⟩ := x; simp [partsEntries, ih]

theorem partsEntries_perm {m m' : List (List Char × Value)} (h : m.Perm m') : partsEntries m = partsEntries m' := by
  rw [partsEntries_eq, partsEntries_eq]
  exact (h.map _).sum_eq

theorem partsEntries_insert (k : List Char) (v : Value) (m : List (List Char × Value)) :
    partsEntries (mapInsert k v m) ≤ partsEntries m + parts v := by
  induction m with
  | nil => simp [mapInsert, partsEntries]
  | cons x m ih =>
    obtain ⟨k', v'⟩ := x
    simp only [mapInsert]
    split <;> simp only [partsEntries] <;> omega

theorem parts_mem_list {v : Value} {a : List Value} (h : v ∈ a) : parts v ≤ partsList a := by
  induction a with
  | nil => cases h
  | cons w a ih =>
    simp only [partsList]
    rcases List.mem_cons.mp h with rfl | h
    · omega
    · have := ih h; omega

theorem parts_mem_entries {k : List Char} {v : Value} {m : List (List Char × Value)} (h : (k, v) ∈ m) :
    parts v ≤ partsEntries m := by
  induction m with
  | nil => cases h
  | cons x m ih =>
    obtain ⟨k', w⟩ := x
    simp only [partsEntries]
    rcases List.mem_cons.mp h with e | h
    · cases e; omega
    · have := ih h; omega

theorem parts_pos (v : Value) : 1 ≤ parts v := by
  cases v <;> simp [parts]

/-- `n` containers around something are `n + 1` parts. -/
theorem Nested.lt_parts {n : Nat} {v : Value} (h : Nested n v) : n < parts v := by
  induction h with
  | zero v => exact parts_pos v
  | array hv _ ih => have := parts_mem_list hv; simp only [parts]; omega
  | map hv _ ih => have := parts_mem_entries hv; simp only [parts]; omega

/-- What `parse_primitive` returns has one part. -/
theorem parsePrimitive_parts (env : Env) (h : Option (Huffman Char)) :
    Yields (parsePrimitive env h) (fun r => ∀ v, r = .value v → parts v = 1) := by
  unfold parsePrimitive
  refine Yields.bind (Yields.any _) fun byte _ => ?_
  refine Yields.bind (Yields.any _) fun ty _ => ?_
  cases ty with
  | integer =>
    refine Yields.bind (Yields.any _) fun ss _ => Yields.bind (Yields.any _) fun i _ => Yields.ret ?_
    rintro v ⟨⟩; simp [parts]
  | imaginary => exact Yields.bind (Yields.any _) fun i _ => Yields.ret (by rintro v ⟨⟩; simp [parts])
  | character =>
    refine Yields.bind (Yields.any _) fun ss _ => Yields.bind (Yields.any _) fun i _ => Yields.ret ?_
    rintro v ⟨⟩; simp [parts]
  | timestamp => exact Yields.bind (Yields.any _) fun i _ => Yields.ret (by rintro v ⟨⟩; simp [parts])
  | string => exact Yields.bind (Yields.any _) fun i _ => Yields.ret (by rintro v ⟨⟩; simp [parts])
  | json => exact Yields.ret (by rintro v ⟨⟩)
  | binary =>
    refine Yields.bind (Yields.any _) fun ss _ => Yields.bind (Yields.any _) fun i _ => Yields.ret ?_
    rintro v ⟨⟩; simp [parts]
  | boolean => exact Yields.ret (by rintro v ⟨⟩; simp [parts])
  | null => exact Yields.ret (by rintro v ⟨⟩; simp [parts])
  | singleFloat => exact Yields.bind (Yields.any _) fun i _ => Yields.ret (by rintro v ⟨⟩; simp [parts])
  | doubleFloat => exact Yields.bind (Yields.any _) fun i _ => Yields.ret (by rintro v ⟨⟩; simp [parts])
  | map => exact Yields.bind (Yields.any _) fun i _ => Yields.ret (by rintro v ⟨⟩)
  | array => exact Yields.bind (Yields.any _) fun i _ => Yields.ret (by rintro v ⟨⟩)
  | timezone => exact Yields.ret (by rintro v ⟨⟩)
  | ipv4Addr => exact Yields.bind (Yields.any _) fun i _ => Yields.ret (by rintro v ⟨⟩; simp [parts])
  | ipv6Addr => exact Yields.bind (Yields.any _) fun i _ => Yields.ret (by rintro v ⟨⟩; simp [parts])

/-- The parts that a state of the loop has already. -/
def DState.parts : DState → Nat
  | .foundValue v => v.parts
  | .map soFar _ _ => 1 + partsEntries soFar
  | .foundKeyValue _ v => v.parts
  | .array soFar _ => 1 + partsList soFar
  | _ => 0

def stackParts : List DState → Nat
  | [] => 0
  | st :: stack => st.parts + stackParts stack

def outParts : Value ⊕ List DState → Nat
  | .inl v => v.parts
  | .inr stack => stackParts stack

theorem afterValue_parts {env : Env} {val : Value} {stack : List DState} {r : Value ⊕ List DState}
    (e : afterValue env val stack = .ok r) : outParts r ≤ val.parts + stackParts stack := by
  have hp := parts_pos val
  cases stack with
  | nil =>
    simp only [afterValue, Out.ok.injEq] at e
    subst e
    simp only [outParts]; omega
  | cons top stack =>
    cases top with
    | foundKey key =>
      simp only [afterValue, Out.ok.injEq] at e
      subst e
      simp only [outParts, stackParts, DState.parts]; omega
    | array soFar left =>
      simp only [afterValue] at e
      split at e <;>
      · simp only [Out.ok.injEq] at e
        subst e
        simp only [outParts, stackParts, DState.parts, parts, partsList_append, partsList]
        omega
    | jsonNeeded =>
      simp only [afterValue] at e
      split at e
      · split at e
        · simp only [Out.ok.injEq] at e
          subst e
          simp only [outParts, stackParts, DState.parts, parts]; omega
        · cases e
      · cases e
    | timezoneNeeded =>
      simp only [afterValue] at e
      split at e
      · split at e
        · simp only [Out.ok.injEq] at e
          subst e
          simp only [outParts, stackParts, DState.parts, parts]; omega
        · cases e
      · cases e
    | valueNeeded => cases e
    | foundValue _ => cases e
    | map _ _ _ => cases e
    | foundKeyValue _ _ => cases e

theorem step_parts {env : Env} (hm : HashOrder env.mapOrd) (h : Option (Huffman Char)) {st : DState}
    {stack : List DState} {c c' : Cursor UInt8} {r : Value ⊕ List DState} (e : step env h st stack c = .ok (r, c')) :
    outParts r + c.pos ≤ c'.pos + stackParts (st :: stack) := by
  cases st with
  | valueNeeded =>
    simp only [step] at e
    rw [Parser.bind_apply, Out.bind_eq_ok] at e
    obtain ⟨⟨p, c1⟩, e1, e2⟩ := e
    have h1 := (parsePrimitive_adv env h c p c1 e1).2.1
    have h2 := parsePrimitive_parts env h c p c1 e1
    cases p with
    | value v =>
      have := h2 v rfl
      simp only [Parser.pure_apply, Out.ok.injEq, Prod.mk.injEq] at e2
      rw [← e2.1, ← e2.2]
      simp only [outParts, stackParts, DState.parts]; omega
    | newArray len =>
      simp only at e2
      split at e2
      · simp only [Parser.pure_apply, Out.ok.injEq, Prod.mk.injEq] at e2
        rw [← e2.1, ← e2.2]
        simp only [outParts, stackParts, DState.parts, partsList]; omega
      · simp at e2
    | newMap len byte =>
      simp only at e2
      split at e2
      · simp only [Parser.pure_apply, Out.ok.injEq, Prod.mk.injEq] at e2
        rw [← e2.1, ← e2.2]
        simp only [outParts, stackParts, DState.parts, partsEntries]; omega
      · simp at e2
    | json =>
      simp only [Parser.pure_apply, Out.ok.injEq, Prod.mk.injEq] at e2
      rw [← e2.1, ← e2.2]
      simp only [outParts, stackParts, DState.parts]; omega
    | timezone =>
      simp only [Parser.pure_apply, Out.ok.injEq, Prod.mk.injEq] at e2
      rw [← e2.1, ← e2.2]
      simp only [outParts, stackParts, DState.parts]; omega
  | foundValue val =>
    simp only [step] at e
    cases ha : afterValue env val stack with
    | ok r' =>
      rw [ha] at e
      simp only [Parser.lift_ok, Out.ok.injEq, Prod.mk.injEq] at e
      have := afterValue_parts ha
      rw [← e.1, ← e.2]
      simp only [stackParts, DState.parts]; omega
    | err _ => rw [ha] at e; simp at e
    | panic _ => rw [ha] at e; simp at e
  | array soFar left =>
    simp only [step, Parser.pure_apply, Out.ok.injEq, Prod.mk.injEq] at e
    rw [← e.1, ← e.2]
    simp only [outParts, stackParts, DState.parts]; omega
  | map soFar left byte =>
    simp only [step] at e
    rw [Parser.bind_apply, Out.bind_eq_ok] at e
    obtain ⟨⟨p, c1⟩, e1, e2⟩ := e
    have h1 := (parseString_adv h byte c p c1 e1).2.1
    simp only [Parser.pure_apply, Out.ok.injEq, Prod.mk.injEq] at e2
    rw [← e2.1, ← e2.2]
    simp only [outParts, stackParts, DState.parts]; omega
  | foundKeyValue key val =>
    simp only [step] at e
    split at e
    · rename_i soFar left byte rest
      have h1 := partsEntries_insert key val soFar
      have h2 := partsEntries_perm (hm (mapInsert key val soFar))
      split at e <;>
      · simp only [Parser.pure_apply, Out.ok.injEq, Prod.mk.injEq] at e
        rw [← e.1, ← e.2]
        simp only [outParts, stackParts, DState.parts, parts]
        omega
    · simp at e
  | foundKey _ => simp [step] at e
  | jsonNeeded => simp [step] at e
  | timezoneNeeded => simp [step] at e

theorem run_parts {env : Env} (hm : HashOrder env.mapOrd) (h : Option (Huffman Char)) (fuel : Nat) :
    ∀ {stack : List DState} {c c' : Cursor UInt8} {v : Value}, run env h fuel stack c = .ok (v, c') →
      v.parts + c.pos ≤ c'.pos + stackParts stack := by
  induction fuel with
  | zero => intro stack c c' v e; simp [run] at e
  | succ fuel ih =>
    intro stack c c' v e
    cases stack with
    | nil => simp [run] at e
    | cons st stack =>
      simp only [run] at e
      rw [Parser.bind_apply, Out.bind_eq_ok] at e
      obtain ⟨⟨r, c1⟩, e1, e2⟩ := e
      have h1 := step_parts hm h e1
      cases r with
      | inl w =>
        simp only [Parser.pure_apply, Out.ok.injEq, Prod.mk.injEq] at e2
        rw [← e2.1, ← e2.2]
        exact h1
      | inr stack' =>
        have h2 : v.parts + c1.pos ≤ c'.pos + stackParts stack' := ih e2
        simp only [outParts] at h1
        omega

/-! ## Where JSON comes from -/

/-- All JSON inside came from a text. -/
def FromText (env : Env) (v : Value) : Prop := ∀ j, Sub (.json j) v → ∃ s, env.jsonParse s = some j

/-- So for all values that a state holds. -/
def DState.FromText (env : Env) : DState → Prop
  | .foundValue v => v.FromText env
  | .map soFar _ _ => ∀ x ∈ soFar, x.2.FromText env
  | .foundKeyValue _ v => v.FromText env
  | .array soFar _ => ∀ v ∈ soFar, v.FromText env
  | _ => True

theorem fromText_array {env : Env} {a : List Value} (h : ∀ v ∈ a, v.FromText env) : FromText env (.array a) := by
  intro j hj
  cases hj with
  | array hv hs => exact h _ hv j hs

theorem fromText_map {env : Env} {m : List (List Char × Value)} (h : ∀ x ∈ m, x.2.FromText env) :
    FromText env (.map m) := by
  intro j hj
  cases hj with
  | map hv hs => exact h _ hv j hs

theorem mapInsert_mem {k : List Char} {v : Value} {m : List (List Char × Value)} {x : List Char × Value}
    (h : x ∈ mapInsert k v m) : x = (k, v) ∨ x ∈ m := by
  induction m with
  | nil => simpa [mapInsert] using h
  | cons y m ih =>
    obtain ⟨k', v'⟩ := y
    simp only [mapInsert] at h
    split at h
    · rcases List.mem_cons.mp h with h | h
      · exact .inl h
      · exact .inr (List.mem_cons_of_mem _ h)
    · rcases List.mem_cons.mp h with h | h
      · exact .inr (h ▸ List.mem_cons_self)
      · rcases ih h with h | h
        · exact .inl h
        · exact .inr (List.mem_cons_of_mem _ h)

/-- `parse_primitive` returns no JSON. -/
theorem parsePrimitive_fromText (env : Env) (h : Option (Huffman Char)) :
    Yields (parsePrimitive env h) (fun r => ∀ v, r = .value v → v.FromText env) := by
  unfold parsePrimitive
  refine Yields.bind (Yields.any _) fun byte _ => ?_
  refine Yields.bind (Yields.any _) fun ty _ => ?_
  cases ty with
  | integer =>
    refine Yields.bind (Yields.any _) fun ss _ => Yields.bind (Yields.any _) fun i _ => Yields.ret ?_
    rintro v ⟨⟩ j hj; cases hj
  | imaginary => exact Yields.bind (Yields.any _) fun i _ => Yields.ret (by rintro v ⟨⟩ j hj; cases hj)
  | character =>
    refine Yields.bind (Yields.any _) fun ss _ => Yields.bind (Yields.any _) fun i _ => Yields.ret ?_
    rintro v ⟨⟩ j hj; cases hj
  | timestamp => exact Yields.bind (Yields.any _) fun i _ => Yields.ret (by rintro v ⟨⟩ j hj; cases hj)
  | string => exact Yields.bind (Yields.any _) fun i _ => Yields.ret (by rintro v ⟨⟩ j hj; cases hj)
  | json => exact Yields.ret (by rintro v ⟨⟩)
  | binary =>
    refine Yields.bind (Yields.any _) fun ss _ => Yields.bind (Yields.any _) fun i _ => Yields.ret ?_
    rintro v ⟨⟩ j hj; cases hj
  | boolean => exact Yields.ret (by rintro v ⟨⟩ j hj; cases hj)
  | null => exact Yields.ret (by rintro v ⟨⟩ j hj; cases hj)
  | singleFloat => exact Yields.bind (Yields.any _) fun i _ => Yields.ret (by rintro v ⟨⟩ j hj; cases hj)
  | doubleFloat => exact Yields.bind (Yields.any _) fun i _ => Yields.ret (by rintro v ⟨⟩ j hj; cases hj)
  | map => exact Yields.bind (Yields.any _) fun i _ => Yields.ret (by rintro v ⟨⟩)
  | array => exact Yields.bind (Yields.any _) fun i _ => Yields.ret (by rintro v ⟨⟩)
  | timezone => exact Yields.ret (by rintro v ⟨⟩)
  | ipv4Addr => exact Yields.bind (Yields.any _) fun i _ => Yields.ret (by rintro v ⟨⟩ j hj; cases hj)
  | ipv6Addr => exact Yields.bind (Yields.any _) fun i _ => Yields.ret (by rintro v ⟨⟩ j hj; cases hj)

/-- What an iteration makes of states whose JSON came from texts. -/
def OutFromText (env : Env) : Value ⊕ List DState → Prop
  | .inl v => v.FromText env
  | .inr stack => ∀ st ∈ stack, st.FromText env

theorem afterValue_fromText {env : Env} {val : Value} {stack : List DState} {r : Value ⊕ List DState}
    (e : afterValue env val stack = .ok r) (hv : val.FromText env) (hs : ∀ st ∈ stack, st.FromText env) :
    OutFromText env r := by
  cases stack with
  | nil =>
    simp only [afterValue, Out.ok.injEq] at e
    subst e
    exact hv
  | cons top stack =>
    have ht := hs top List.mem_cons_self
    have hr : ∀ st ∈ stack, st.FromText env := fun st h => hs st (List.mem_cons_of_mem _ h)
    cases top with
    | foundKey key =>
      simp only [afterValue, Out.ok.injEq] at e
      subst e
      exact List.forall_mem_cons.mpr ⟨hv, hr⟩
    | array soFar left =>
      have ha : ∀ v ∈ soFar ++ [val], v.FromText env := by
        intro v h
        rcases List.mem_append.mp h with h | h
        · exact ht v h
        · rw [List.mem_singleton.mp h]; exact hv
      simp only [afterValue] at e
      split at e
      · simp only [Out.ok.injEq] at e
        subst e
        exact List.forall_mem_cons.mpr ⟨fromText_array ha, hr⟩
      · simp only [Out.ok.injEq] at e
        subst e
        exact List.forall_mem_cons.mpr ⟨ha, hr⟩
    | jsonNeeded =>
      simp only [afterValue] at e
      split at e
      · split at e
        · rename_i s _ j hj
          simp only [Out.ok.injEq] at e
          subst e
          refine List.forall_mem_cons.mpr ⟨?_, hr⟩
          intro j' hj'
          cases hj'
          exact ⟨_, hj⟩
        · cases e
      · cases e
    | timezoneNeeded =>
      simp only [afterValue] at e
      split at e
      · split at e
        · simp only [Out.ok.injEq] at e
          subst e
          refine List.forall_mem_cons.mpr ⟨?_, hr⟩
          intro j' hj'
          cases hj'
        · cases e
      · cases e
    | valueNeeded => cases e
    | foundValue _ => cases e
    | map _ _ _ => cases e
    | foundKeyValue _ _ => cases e

theorem step_fromText {env : Env} (hm : HashOrder env.mapOrd) (h : Option (Huffman Char)) {st : DState}
    {stack : List DState} {c c' : Cursor UInt8} {r : Value ⊕ List DState} (e : step env h st stack c = .ok (r, c'))
    (hs : ∀ s ∈ st :: stack, s.FromText env) : OutFromText env r := by
  have ht := hs st List.mem_cons_self
  have hr : ∀ st ∈ stack, st.FromText env := fun st h => hs st (List.mem_cons_of_mem _ h)
  cases st with
  | valueNeeded =>
    simp only [step] at e
    rw [Parser.bind_apply, Out.bind_eq_ok] at e
    obtain ⟨⟨p, c1⟩, e1, e2⟩ := e
    have h2 := parsePrimitive_fromText env h c p c1 e1
    cases p with
    | value v =>
      simp only [Parser.pure_apply, Out.ok.injEq, Prod.mk.injEq] at e2
      rw [← e2.1]
      exact List.forall_mem_cons.mpr ⟨h2 v rfl, hr⟩
    | newArray len =>
      simp only at e2
      split at e2
      · simp only [Parser.pure_apply, Out.ok.injEq, Prod.mk.injEq] at e2
        rw [← e2.1]
        exact List.forall_mem_cons.mpr ⟨fun _ h => absurd h List.not_mem_nil, hr⟩
      · simp at e2
    | newMap len byte =>
      simp only at e2
      split at e2
      · simp only [Parser.pure_apply, Out.ok.injEq, Prod.mk.injEq] at e2
        rw [← e2.1]
        exact List.forall_mem_cons.mpr ⟨fun _ h => absurd h List.not_mem_nil, hr⟩
      · simp at e2
    | json =>
      simp only [Parser.pure_apply, Out.ok.injEq, Prod.mk.injEq] at e2
      rw [← e2.1]
      exact List.forall_mem_cons.mpr ⟨trivial, List.forall_mem_cons.mpr ⟨trivial, hr⟩⟩
    | timezone =>
      simp only [Parser.pure_apply, Out.ok.injEq, Prod.mk.injEq] at e2
      rw [← e2.1]
      exact List.forall_mem_cons.mpr ⟨trivial, List.forall_mem_cons.mpr ⟨trivial, hr⟩⟩
  | foundValue val =>
    simp only [step] at e
    cases ha : afterValue env val stack with
    | ok r' =>
      rw [ha] at e
      simp only [Parser.lift_ok, Out.ok.injEq, Prod.mk.injEq] at e
      rw [← e.1]
      exact afterValue_fromText ha ht hr
    | err _ => rw [ha] at e; simp at e
    | panic _ => rw [ha] at e; simp at e
  | array soFar left =>
    simp only [step, Parser.pure_apply, Out.ok.injEq, Prod.mk.injEq] at e
    rw [← e.1]
    exact List.forall_mem_cons.mpr ⟨trivial, hs⟩
  | map soFar left byte =>
    simp only [step] at e
    rw [Parser.bind_apply, Out.bind_eq_ok] at e
    obtain ⟨⟨p, c1⟩, e1, e2⟩ := e
    simp only [Parser.pure_apply, Out.ok.injEq, Prod.mk.injEq] at e2
    rw [← e2.1]
    exact List.forall_mem_cons.mpr ⟨trivial, hs⟩
  | foundKeyValue key val =>
    simp only [step] at e
    split at e
    · rename_i soFar left byte rest
      have hsf : ∀ x ∈ soFar, x.2.FromText env := hr (.map soFar left byte) List.mem_cons_self
      have hi : ∀ x ∈ mapInsert key val soFar, x.2.FromText env := by
        intro x hx
        rcases mapInsert_mem hx with rfl | hx
        · exact ht
        · exact hsf x hx
      have hr' : ∀ st ∈ rest, st.FromText env := fun st h => hr st (List.mem_cons_of_mem _ h)
      split at e
      · simp only [Parser.pure_apply, Out.ok.injEq, Prod.mk.injEq] at e
        rw [← e.1]
        refine List.forall_mem_cons.mpr ⟨fromText_map fun x hx => hi x ((hm _).mem_iff.mp hx), hr'⟩
      · simp only [Parser.pure_apply, Out.ok.injEq, Prod.mk.injEq] at e
        rw [← e.1]
        exact List.forall_mem_cons.mpr ⟨hi, hr'⟩
    · simp at e
  | foundKey _ => simp [step] at e
  | jsonNeeded => simp [step] at e
  | timezoneNeeded => simp [step] at e

theorem run_fromText {env : Env} (hm : HashOrder env.mapOrd) (h : Option (Huffman Char)) (fuel : Nat) :
    ∀ {stack : List DState} {c c' : Cursor UInt8} {v : Value}, run env h fuel stack c = .ok (v, c') →
      (∀ st ∈ stack, st.FromText env) → v.FromText env := by
  induction fuel with
  | zero => intro stack c c' v e; simp [run] at e
  | succ fuel ih =>
    intro stack c c' v e hs
    cases stack with
    | nil => simp [run] at e
    | cons st stack =>
      simp only [run] at e
      rw [Parser.bind_apply, Out.bind_eq_ok] at e
      obtain ⟨⟨r, c1⟩, e1, e2⟩ := e
      have h1 := step_fromText hm h e1 hs
      cases r with
      | inl w =>
        simp only [Parser.pure_apply, Out.ok.injEq, Prod.mk.injEq] at e2
        rw [← e2.1]
        exact h1
      | inr stack' => exact ih e2 h1

/-! ## Boxes in boxes -/

/-- `n` arrays of one element around `null`. -/
def boxes : Nat → Value
  | 0 => .null
  | n + 1 => .array [boxes n]

/-- The bytes of that: one for each array and one for the `null`. -/
def boxBytes : Nat → List UInt8
  | 0 => [0x90]
  | n + 1 => 0xB2 :: boxBytes n

theorem boxBytes_length (n : Nat) : (boxBytes n).length = n + 1 := by
  induction n with
  | zero => rfl
  | succ n ih => simp [boxBytes, ih]

theorem boxBytes_ne (n : Nat) : boxBytes n ≠ [] := by cases n <;> simp [boxBytes]

theorem prim_box (env : Env) (h : Option (Huffman Char)) : Reads (parsePrimitive env h) [0xB2] (.newArray 1) := by
  have : Reads (primBody env h (tyByte .array 2) .array) [] (.newArray 1) := by
    intro pre tail _
    simp only [primBody, List.nil_append, List.append_nil]
    rfl
  exact prim_reads (t := .array) (f := 2) (by decide) this

theorem prim_null (env : Env) (h : Option (Huffman Char)) : Reads (parsePrimitive env h) [0x90] (.value .null) :=
  prim_reads (t := .null) (f := 0) (by decide) (Reads.pure _)

theorem boxes_parsed {env : Env} (hcap : 1 ≤ env.arrayCapMax) (h : Option (Huffman Char)) (n : Nat) :
    Parsed env h (boxBytes n) (boxes n) := by
  induction n with
  | zero => exact parsed_value (prim_null env h)
  | succ n ih =>
    intro pre tail stack hlen
    have h1 := prim_box env h pre (boxBytes n ++ tail) (by simpa [boxBytes] using hlen)
    have h2 := ih (pre ++ [0xB2]) tail (.array [] 1 :: stack) (by simpa [boxBytes] using hlen)
    refine Steps.trans (Steps.one (s1 := .array [] 1 :: stack) (c1 := Cursor.At (pre ++ [0xB2]) (boxBytes n ++ tail)) ?_)
      (Steps.trans (Steps.one (s1 := .valueNeeded :: .array [] 1 :: stack) rfl) (Steps.trans h2 ?_))
    · simp only [step, boxBytes]
      rw [Parser.bind_apply]
      have h1' : parsePrimitive env h (Cursor.At pre (0xB2 :: boxBytes n ++ tail)) = .ok (.newArray 1,
          Cursor.At (pre ++ [0xB2]) (boxBytes n ++ tail)) := h1
      rw [h1']
      simp [hcap]
    · refine Steps.one ?_
      simp [step, afterValue, boxes, boxBytes]

theorem boxes_nested (n : Nat) : Nested n (boxes n) := by
  induction n with
  | zero => exact .zero _
  | succ n ih => exact .array (List.mem_singleton.mpr rfl) ih

end Value

end Souris
