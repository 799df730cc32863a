import Verif.Lemmas.ValueReads

/-! # What values `Value::deser` can return: no maps, no empty arrays -/

namespace Souris

namespace Value

/-- Neither a map nor an empty array anywhere. -/
def Clean (v : Value) : Prop := ¬ HasMap v ∧ ¬ HasEmptyArray v

/-- States on the way to success. -/
def Good : DState → Prop
  | .valueNeeded => True
  | .foundValue v => Clean v
  | .jsonNeeded => True
  | .timezoneNeeded => True
  | .array soFar _ => ∀ v ∈ soFar, Clean v
  | .map .. => False
  | .foundKey _ => False
  | .foundKeyValue .. => False

theorem clean_array {a : List Value} (hne : a ≠ []) (h : ∀ v ∈ a, Clean v) : Clean (.array a) := by
  constructor
  · intro hm
    cases hm with
    | array hv hm => exact (h _ hv).1 hm
  · intro hm
    cases hm with
    | nil => exact hne rfl
    | array hv hm => exact (h _ hv).2 hm

/-- A value that is neither a map nor an array is clean. -/
theorem clean_of {v : Value} (hm : ∀ m, v ≠ .map m) (ha : ∀ a, v ≠ .array a) : Clean v := by
  constructor
  · intro h
    cases h with
    | map m => exact hm m rfl
    | array _ _ => exact ha _ rfl
  · intro h
    cases h with
    | nil => exact ha _ rfl
    | array _ _ => exact ha _ rfl
    | map _ _ => exact hm _ rfl

/-- `parse_primitive` itself returns neither maps nor arrays. -/
theorem primBody_clean {env : Env} {h : Option (Huffman Char)} {b : UInt8} {t : ValueTy} {c c' : Cursor UInt8}
    {v : Value} (e : primBody env h b t c = .ok (.value v, c')) : Clean v := by
  have key : ∀ {α : Type} {p : Parser ValueSerError α} {f : α → Value}
      {c : Cursor UInt8}, (∀ x, Clean (f x)) →
      (p >>= fun x => (pure (ParseResult.value (f x)) : Parser ValueSerError ParseResult)) c = .ok (.value v, c') →
      Clean v := by
    intro α p f c hf e
    rw [Parser.bind_apply, Out.bind_eq_ok] at e
    obtain ⟨⟨x, c1⟩, _, e2⟩ := e
    simp only [Parser.pure_apply, Out.ok.injEq, Prod.mk.injEq, ParseResult.value.injEq] at e2
    rw [← e2.1]
    exact hf x
  have strip : ∀ {α : Type} {p : Parser ValueSerError α} {f : α → Parser ValueSerError ParseResult}
      {c : Cursor UInt8}, (p >>= f) c = .ok (.value v, c') → ∃ x c1, f x c1 = .ok (.value v, c') := by
    intro α p f c e
    rw [Parser.bind_apply, Out.bind_eq_ok] at e
    obtain ⟨⟨x, c1⟩, _, e2⟩ := e
    exact ⟨x, c1, e2⟩
  have leaf : ∀ v : Value, (∀ m, v ≠ .map m) → (∀ a, v ≠ .array a) → Clean v := fun _ h1 h2 => clean_of h1 h2
  cases t with
  | integer =>
    obtain ⟨x, c1, e⟩ := strip e
    exact key (f := fun i => .integer i) (fun _ => leaf _ nofun nofun) e
  | imaginary => exact key (f := fun i => .imaginary i) (fun _ => leaf _ nofun nofun) e
  | character =>
    obtain ⟨x, c1, e⟩ := strip e
    exact key (f := fun i => .character i) (fun _ => leaf _ nofun nofun) e
  | timestamp => exact key (f := fun i => .timestamp i) (fun _ => leaf _ nofun nofun) e
  | string => exact key (f := fun i => .string i) (fun _ => leaf _ nofun nofun) e
  | json => simp [primBody] at e
  | binary =>
    obtain ⟨x, c1, e⟩ := strip e
    exact key (f := fun i => .binary i) (fun _ => leaf _ nofun nofun) e
  | boolean =>
    simp only [primBody, Parser.pure_apply, Out.ok.injEq, Prod.mk.injEq, ParseResult.value.injEq] at e
    rw [← e.1]; exact leaf _ nofun nofun
  | null =>
    simp only [primBody, Parser.pure_apply, Out.ok.injEq, Prod.mk.injEq, ParseResult.value.injEq] at e
    rw [← e.1]; exact leaf _ nofun nofun
  | singleFloat => exact key (f := fun bs => .single (UInt32.ofNat (ofLe bs))) (fun _ => leaf _ nofun nofun) e
  | doubleFloat => exact key (f := fun bs => .double (UInt64.ofNat (ofLe bs))) (fun _ => leaf _ nofun nofun) e
  | map =>
    obtain ⟨x, c1, e⟩ := strip e
    simp at e
  | array =>
    obtain ⟨x, c1, e⟩ := strip e
    simp at e
  | timezone => simp [primBody] at e
  | ipv4Addr =>
    exact key (f := fun bs : List UInt8 => .ipv4 (bs.getD 0 0) (bs.getD 1 0) (bs.getD 2 0) (bs.getD 3 0))
      (fun _ => leaf _ nofun nofun) e
  | ipv6Addr =>
    exact key (f := fun bs : List UInt8 => .ipv6 (at16 bs 0) (at16 bs 1) (at16 bs 2) (at16 bs 3) (at16 bs 4)
      (at16 bs 5) (at16 bs 6) (at16 bs 7)) (fun _ => leaf _ nofun nofun) e

theorem parsePrimitive_clean {env : Env} {h : Option (Huffman Char)} {c c' : Cursor UInt8} {v : Value}
    (e : parsePrimitive env h c = .ok (.value v, c')) : Clean v := by
  rw [parsePrimitive_eq, Parser.bind_apply, Out.bind_eq_ok] at e
  obtain ⟨⟨b, c1⟩, _, e⟩ := e
  rw [Parser.bind_apply, Out.bind_eq_ok] at e
  obtain ⟨⟨t, c2⟩, _, e⟩ := e
  exact primBody_clean e

/-- Once a map is on top of the stack the loop cannot succeed. -/
theorem map_doomed {env : Env} {h : Option (Huffman Char)} {n : Nat} {soFar : List (List Char × Value)}
    {left : Nat} {byte : UInt8} {stack : List DState} {c : Cursor UInt8}
    {o : Out ValueSerError (Value × Cursor UInt8)} (hl : Loops env h n (.map soFar left byte :: stack) c o) :
    ∀ x, o ≠ .ok x := by
  cases hl with
  | done e =>
    simp only [step] at e
    rw [Parser.bind_apply, Out.bind_eq_ok] at e
    obtain ⟨⟨k, c1⟩, _, e⟩ := e
    simp at e
  | err e => exact nofun
  | panic e => exact nofun
  | more e hn =>
    simp only [step] at e
    rw [Parser.bind_apply, Out.bind_eq_ok] at e
    obtain ⟨⟨k, c1⟩, _, e⟩ := e
    simp only [Parser.pure_apply, Out.ok.injEq, Prod.mk.injEq, Sum.inr.injEq] at e
    obtain ⟨rfl, rfl⟩ := e
    cases hn with
    | done e => simp [step] at e
    | err e => exact nofun
    | panic e => exact nofun
    | more e _ => simp [step] at e

theorem loops_clean {env : Env} {h : Option (Huffman Char)} {n : Nat} {stack : List DState} {c : Cursor UInt8}
    {o : Out ValueSerError (Value × Cursor UInt8)} (hl : Loops env h n stack c o)
    (hg : ∀ st ∈ stack, Good st) : ∀ v c', o = .ok (v, c') → Clean v := by
  induction hl with
  | empty c => exact nofun
  | err e => exact nofun
  | panic e => exact nofun
  | @done st stack c c1 v1 e =>
    rintro v c' ho
    simp only [Out.ok.injEq, Prod.mk.injEq] at ho
    obtain ⟨rfl, rfl⟩ := ho
    cases st with
    | foundValue w =>
      have hw : Clean w := hg (.foundValue w) (by simp)
      simp only [step] at e
      cases ha : afterValue env w stack with
      | ok r =>
        rw [ha] at e
        simp only [Parser.lift_ok, Out.ok.injEq, Prod.mk.injEq] at e
        rw [e.1] at ha
        unfold afterValue at ha
        repeat' split at ha
        all_goals first
          | (simp only [Out.ok.injEq, Sum.inl.injEq] at ha; rw [← ha]; exact hw)
          | simp at ha
      | err x => rw [ha] at e; simp at e
      | panic x => rw [ha] at e; simp at e
    | valueNeeded =>
      simp only [step] at e
      rw [Parser.bind_apply, Out.bind_eq_ok] at e
      obtain ⟨⟨r, c2⟩, e2, e3⟩ := e
      cases r with
      | value v => simp at e3
      | newArray len => simp only at e3; split at e3 <;> simp at e3
      | newMap len byte => simp only at e3; split at e3 <;> simp at e3
      | json => simp at e3
      | timezone => simp at e3
    | array soFar left => simp [step] at e
    | map soFar left byte => exact (hg _ (by simp) : Good (.map soFar left byte)).elim
    | foundKeyValue k w => exact (hg _ (by simp) : Good (.foundKeyValue k w)).elim
    | foundKey k => exact (hg _ (by simp) : Good (.foundKey k)).elim
    | jsonNeeded => simp [step] at e
    | timezoneNeeded => simp [step] at e
  | @more n st stack stack' c c1 o e hn ih =>
    have hrest : ∀ s ∈ stack, Good s := fun s hs => hg s (by simp [hs])
    rintro v c' rfl
    cases st with
    | valueNeeded =>
      simp only [step] at e
      rw [Parser.bind_apply, Out.bind_eq_ok] at e
      obtain ⟨⟨r, c2⟩, e2, e3⟩ := e
      cases r with
      | value w =>
        simp only [Parser.pure_apply, Out.ok.injEq, Prod.mk.injEq, Sum.inr.injEq] at e3
        obtain ⟨rfl, rfl⟩ := e3
        refine ih ?_ v c' rfl
        intro s hs
        rcases List.mem_cons.mp hs with rfl | hs
        · exact parsePrimitive_clean e2
        · exact hrest s hs
      | newArray len =>
        simp only at e3
        split at e3
        · simp only [Parser.pure_apply, Out.ok.injEq, Prod.mk.injEq, Sum.inr.injEq] at e3
          obtain ⟨rfl, rfl⟩ := e3
          refine ih ?_ v c' rfl
          intro s hs
          rcases List.mem_cons.mp hs with rfl | hs
          · simp [Good]
          · exact hrest s hs
        · simp at e3
      | newMap len byte =>
        simp only at e3
        split at e3
        · simp only [Parser.pure_apply, Out.ok.injEq, Prod.mk.injEq, Sum.inr.injEq] at e3
          obtain ⟨rfl, rfl⟩ := e3
          exact absurd rfl (map_doomed hn _)
        · simp at e3
      | json =>
        simp only [Parser.pure_apply, Out.ok.injEq, Prod.mk.injEq, Sum.inr.injEq] at e3
        obtain ⟨rfl, rfl⟩ := e3
        refine ih ?_ v c' rfl
        intro s hs
        simp only [List.mem_cons] at hs
        rcases hs with rfl | rfl | hs
        · trivial
        · trivial
        · exact hrest s hs
      | timezone =>
        simp only [Parser.pure_apply, Out.ok.injEq, Prod.mk.injEq, Sum.inr.injEq] at e3
        obtain ⟨rfl, rfl⟩ := e3
        refine ih ?_ v c' rfl
        intro s hs
        simp only [List.mem_cons] at hs
        rcases hs with rfl | rfl | hs
        · trivial
        · trivial
        · exact hrest s hs
    | foundValue w =>
      have hw : Clean w := hg (.foundValue w) (by simp)
      simp only [step] at e
      have ha : afterValue env w stack = .ok (.inr stack') := by
        cases ha : afterValue env w stack with
        | ok r => rw [ha] at e; simp only [Parser.lift_ok, Out.ok.injEq, Prod.mk.injEq] at e; rw [e.1]
        | err x => rw [ha] at e; simp at e
        | panic x => rw [ha] at e; simp at e
      refine ih ?_ v c' rfl
      cases stack with
      | nil => simp [afterValue] at ha
      | cons s rest =>
        have hs := hrest s (by simp)
        have hr : ∀ s ∈ rest, Good s := fun s hs => hrest s (by simp [hs])
        cases s with
        | array soFar left =>
          have hall : ∀ v ∈ soFar ++ [w], Clean v := by
            intro v hv
            rcases List.mem_append.mp hv with hv | hv
            · exact hs v hv
            · rw [List.mem_singleton.mp hv]; exact hw
          simp only [afterValue] at ha
          split at ha
          · simp only [Out.ok.injEq, Sum.inr.injEq] at ha
            subst ha
            intro s hs
            rcases List.mem_cons.mp hs with rfl | hs
            · exact clean_array (by simp) hall
            · exact hr s hs
          · simp only [Out.ok.injEq, Sum.inr.injEq] at ha
            subst ha
            intro s hs
            rcases List.mem_cons.mp hs with rfl | hs
            · exact hall
            · exact hr s hs
        | jsonNeeded =>
          simp only [afterValue] at ha
          cases w <;> simp only [reduceCtorEq] at ha
          split at ha
          · simp only [Out.ok.injEq, Sum.inr.injEq] at ha
            subst ha
            intro s hs
            rcases List.mem_cons.mp hs with rfl | hs
            · exact clean_of nofun nofun
            · exact hr s hs
          · simp at ha
        | timezoneNeeded =>
          simp only [afterValue] at ha
          cases w <;> simp only [reduceCtorEq] at ha
          split at ha
          · simp only [Out.ok.injEq, Sum.inr.injEq] at ha
            subst ha
            intro s hs
            rcases List.mem_cons.mp hs with rfl | hs
            · exact clean_of nofun nofun
            · exact hr s hs
          · simp at ha
        | foundKey k => exact hs.elim
        | map => exact hs.elim
        | foundKeyValue => exact hs.elim
        | valueNeeded => simp [afterValue] at ha
        | foundValue => simp [afterValue] at ha
    | array soFar left =>
      simp only [step, Parser.pure_apply, Out.ok.injEq, Prod.mk.injEq, Sum.inr.injEq] at e
      obtain ⟨rfl, rfl⟩ := e
      refine ih ?_ v c' rfl
      intro s hs
      rcases List.mem_cons.mp hs with rfl | hs
      · trivial
      · exact hg s hs
    | map soFar left byte => exact (hg _ (by simp) : Good (.map soFar left byte)).elim
    | foundKeyValue k w => exact (hg _ (by simp) : Good (.foundKeyValue k w)).elim
    | foundKey k => exact (hg _ (by simp) : Good (.foundKey k)).elim
    | jsonNeeded => simp [step] at e
    | timezoneNeeded => simp [step] at e

/-- A value with a map or an empty array somewhere has the same contents only as another such value. -/
theorem SameAs.unclean {v v' : Value} (hs : SameAs v v') (h : HasMap v ∨ HasEmptyArray v) :
    HasMap v' ∨ HasEmptyArray v' := by
  have elem : ∀ {a a' : List Value} {v : Value}, v ∈ a → a.length = a'.length → ∃ (i : Nat) (v' : Value), a[i]? = some v ∧
      a'[i]? = some v' := by
    intro a a' v hv hl
    obtain ⟨i, hi, e⟩ := List.getElem_of_mem hv
    exact ⟨i, a'[i]'(by omega), by rw [List.getElem?_eq_getElem hi, e], List.getElem?_eq_getElem (by omega)⟩
  rcases h with h | h
  · induction h generalizing v' with
    | map m => cases hs with | map => exact .inl (.map _)
    | array hv _ ih =>
      cases hs with
      | array hl hs =>
        obtain ⟨i, v', e1, e2⟩ := elem hv hl
        rcases ih (hs i _ _ e1 e2) with h | h
        · exact .inl (.array (List.mem_of_getElem? e2) h)
        · exact .inr (.array (List.mem_of_getElem? e2) h)
  · induction h generalizing v' with
    | nil =>
      cases hs with
      | @array _ a' hl hs =>
        have : a' = [] := List.length_eq_zero_iff.mp hl.symm
        rw [this]; exact .inr .nil
    | array hv _ ih =>
      cases hs with
      | array hl hs =>
        obtain ⟨i, v', e1, e2⟩ := elem hv hl
        rcases ih (hs i _ _ e1 e2) with h | h
        · exact .inl (.array (List.mem_of_getElem? e2) h)
        · exact .inr (.array (List.mem_of_getElem? e2) h)
    | map _ _ _ => cases hs with | map => exact .inl (.map _)

end Value

end Souris
