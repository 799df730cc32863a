import Verif.Lemmas.ValueClean
import Verif.Spec.ValueEq

/-! # What values `Value::deser` can return: only values that can be written and read again -/

namespace Souris

/-- Whatever the parser returns has the property. -/
def Yields {ε α : Type} (p : Parser ε α) (P : α → Prop) : Prop := ∀ c x c', p c = .ok (x, c') → P x

namespace Yields

variable {ε ε' α β : Type}

theorem ret {P : α → Prop} {x : α} (h : P x) : Yields (pure x : Parser ε α) P := by
  intro c y c' e
  simp only [Parser.pure_apply, Out.ok.injEq, Prod.mk.injEq] at e
  rw [← e.1]; exact h

theorem bind {p : Parser ε α} {f : α → Parser ε β} {Q : α → Prop} {P : β → Prop} (hp : Yields p Q)
    (hf : ∀ x, Q x → Yields (f x) P) : Yields (p >>= f) P := by
  intro c y c' e
  rw [Parser.bind_apply, Out.bind_eq_ok] at e
  obtain ⟨⟨x, c1⟩, e1, e2⟩ := e
  exact hf x (hp _ _ _ e1) _ _ _ e2

theorem any (p : Parser ε α) : Yields p (fun _ => True) := fun _ _ _ _ => trivial

theorem mapErr {p : Parser ε α} {P : α → Prop} (f : ε → ε') (h : Yields p P) : Yields (p.mapErr f) P := by
  intro c x c' e
  rw [Parser.mapErr_apply, Out.mapErr_eq_ok] at e
  exact h _ _ _ e

theorem fail {P : α → Prop} (e : ε) : Yields (Parser.fail e : Parser ε α) P := by
  intro c x c' h; simp at h

theorem crash {P : α → Prop} (r : Panic) : Yields (Parser.crash r : Parser ε α) P := by
  intro c x c' h; simp at h

theorem lift {P : α → Prop} {o : Out ε α} (h : ∀ x, o = .ok x → P x) : Yields (Parser.lift o) P := by
  intro c x c' e
  cases o with
  | ok y =>
    simp only [Parser.lift_ok, Out.ok.injEq, Prod.mk.injEq] at e
    exact h x (by rw [e.1])
  | err _ => simp at e
  | panic _ => simp at e

theorem mono {p : Parser ε α} {P Q : α → Prop} (h : Yields p P) (hpq : ∀ x, P x → Q x) : Yields p Q :=
  fun c x c' e => hpq x (h c x c' e)

theorem read (e : ε) (n : Nat) : Yields (Parser.read e n) (fun bs => bs.length = n) := by
  intro c x c' h
  unfold Parser.read Cursor.read at h
  cases hs : checkedAdd c.pos n with
  | none => rw [hs] at h; simp at h
  | some stop =>
    rw [hs] at h
    have : stop = c.pos + n := by
      unfold checkedAdd at hs; split at hs <;> simp_all
    simp only at h
    split at h
    · rename_i bs c1 heq
      split at heq
      · simp at heq
      · simp only [Prod.mk.injEq, Option.some.injEq] at heq
        simp only [Out.ok.injEq, Prod.mk.injEq] at h
        rw [← h.1, ← heq.1, Cursor.slice, List.length_take, List.length_drop]
        omega
    · simp at h

end Yields

namespace Value

theorem intP_yields (ss : SignedState) : Yields (intP ss) Integer.Reachable :=
  Yields.mapErr _ fun _ _ _ e => .deser e

theorem uintP_yields (k : Nat) : Yields (uintP k) (fun n => n < 256 ^ k) := by
  refine Yields.bind (intP_yields _) fun i _ => Yields.mapErr _ (Yields.lift fun n hn => ?_)
  unfold Integer.toUnsigned at hn
  split at hn
  · cases hn
  · split at hn
    · cases hn
    · simp only [Out.ok.injEq] at hn
      rw [← hn]
      have hl : (copyPrefix (List.replicate k 0) (i.content.take k)).length = k := by
        rw [copyPrefix_eq (by simp)]; simp
      calc _ < 256 ^ (copyPrefix (List.replicate k 0) (i.content.take k)).length := ofLe_lt _
        _ = 256 ^ k := by rw [hl]

theorem lenP_yields (b : UInt8) (t : ValueTy) : Yields (lenP b t) (fun n => n < 2 ^ 64) := by
  refine Yields.bind (Yields.any _) fun ty _ => ?_
  split
  · split
    · exact (uintP_yields 8).mono fun n h => by norm_num at h ⊢; exact h
    · refine Yields.ret ?_
      have := ((b &&& 0b00001110) >>> 1).toNat_lt
      omega
  · exact Yields.fail _

theorem parseString_yields (b : UInt8) : Yields (parseString none b) (StringStorable none) := by
  unfold parseString
  split
  · exact Yields.fail _
  · refine Yields.bind (uintP_yields 8) fun n hn => Yields.bind (Yields.read _ n) fun bs hbs => Yields.lift fun s hs => ?_
    cases hd : utf8Decode bs with
    | none => rw [hd] at hs; cases hs
    | some s' =>
      rw [hd] at hs
      simp only [Out.ofOption, Out.ok.injEq] at hs
      subst hs
      refine ⟨?_, fun coder h => by cases h⟩
      rw [utf8_utf8Decode hd, hbs]
      norm_num at hn ⊢; exact hn

theorem timestampP_yields (b : UInt8) : Yields (timestampP b) (fun t => t.Valid ∧ t.LeapAt59) := by
  unfold timestampP
  refine Yields.bind (Yields.any _) fun _ _ => Yields.bind (Yields.any _) fun _ _ =>
    Yields.bind (Yields.any _) fun year _ => Yields.bind (Yields.any _) fun month _ => Yields.bind (Yields.any _) fun day _ => ?_
  split
  · exact Yields.fail _
  · rename_i hd
    refine Yields.bind (Yields.any _) fun hour _ => Yields.bind (Yields.any _) fun minute _ =>
      Yields.bind (Yields.any _) fun sec _ => Yields.bind (Yields.any _) fun nano _ => ?_
    split
    · exact Yields.fail _
    · rename_i ht
      refine Yields.ret ?_
      rw [not_not] at hd ht
      simp only [Timestamp.timeOk, decide_eq_true_eq] at ht
      obtain ⟨g1, g2, g3, g4, g5⟩ := ht
      exact ⟨⟨dateOk_iff.mp hd, g1, g2, g3, g4⟩, g5⟩

theorem imaginary_yields (m : UInt8) : Yields (Imaginary.deser m) Imaginary.Reachable := by
  unfold Imaginary.deser
  split
  · refine Yields.bind (Yields.any _) fun ss _ => ?_
    obtain ⟨s1, s2⟩ := ss
    refine Yields.bind (Q := Integer.Reachable) (fun _ _ _ e => .deser e) fun re hre => ?_
    refine Yields.bind (Q := Integer.Reachable) (fun _ _ _ e => .deser e) fun im him => ?_
    exact Yields.ret (.cartesian hre him)
  · refine Yields.bind (Yields.any _) fun md _ => Yields.bind (Yields.any _) fun ar _ => Yields.ret (.polar md ar)

/-- Storable, if binary data and the JSON in it, which was read from some text, are. -/
def Keeps (env : Env) (v : Value) : Prop := ∀ J : SJValue → Prop,
  (∀ b, Sub (.binary b) v → BinaryKept env b) →
  (∀ j, Sub (.json j) v → (∃ s, env.jsonParse s = some j) → (utf8 (env.jsonPrint j)).length < 2 ^ 64 ∧ J j) →
  StorableWith J env none v

theorem Keeps.of {env : Env} {v : Value} (h : ∀ J, StorableWith J env none v) : Keeps env v := fun J _ _ => h J

/-- What `parse_primitive` may return. -/
def PrimOk (env : Env) : ParseResult → Prop
  | .value v => Keeps env v
  | .newArray len => len < 2 ^ 64
  | _ => True

theorem primBody_yields (env : Env) (b : UInt8) (t : ValueTy) : Yields (primBody env none b t) (PrimOk env) := by
  cases t with
  | integer =>
    exact Yields.bind (Yields.any _) fun _ _ => Yields.bind (intP_yields _) fun i hi => Yields.ret (Keeps.of fun _ => .integer hi)
  | imaginary => exact Yields.bind (Yields.mapErr _ (imaginary_yields _)) fun z hz => Yields.ret (Keeps.of fun _ => .imaginary hz)
  | character =>
    exact Yields.bind (Yields.any _) fun _ _ => Yields.bind (Yields.any _) fun ch _ => Yields.ret (Keeps.of fun _ => .character ch)
  | timestamp => exact Yields.bind (timestampP_yields _) fun t ht => Yields.ret (Keeps.of fun _ => .timestamp ht.1 ht.2)
  | string => exact Yields.bind (parseString_yields _) fun s hs => Yields.ret (Keeps.of fun _ => .string hs)
  | json => exact Yields.ret trivial
  | binary =>
    exact Yields.bind (Yields.any _) fun _ _ => Yields.bind (Yields.any _) fun bs _ =>
      Yields.ret (fun _ hb _ => .binary (hb _ (.refl _)))
  | boolean => exact Yields.ret (Keeps.of fun _ => .boolean _)
  | null => exact Yields.ret (Keeps.of fun _ => .null)
  | singleFloat => exact Yields.bind (Yields.any _) fun _ _ => Yields.ret (Keeps.of fun _ => .single _)
  | doubleFloat => exact Yields.bind (Yields.any _) fun _ _ => Yields.ret (Keeps.of fun _ => .double _)
  | map => exact Yields.bind (Yields.any _) fun _ _ => Yields.ret trivial
  | array => exact Yields.bind (lenP_yields _ _) fun n hn => Yields.ret hn
  | timezone => exact Yields.ret trivial
  | ipv4Addr => exact Yields.bind (Yields.any _) fun _ _ => Yields.ret (Keeps.of fun _ => .ipv4 _ _ _ _)
  | ipv6Addr => exact Yields.bind (Yields.any _) fun _ _ => Yields.ret (Keeps.of fun _ => .ipv6 _ _ _ _ _ _ _ _)

theorem parsePrimitive_yields (env : Env) : Yields (parsePrimitive env none) (PrimOk env) := by
  rw [parsePrimitive_eq]
  exact Yields.bind (Yields.any _) fun b _ => Yields.bind (Yields.any _) fun t _ => primBody_yields env b t

/-- States on the way to success, with what they hold. -/
def KeepsState (env : Env) : DState → Prop
  | .valueNeeded => True
  | .foundValue v => Keeps env v
  | .jsonNeeded => True
  | .timezoneNeeded => True
  | .array soFar left => (∀ v ∈ soFar, Keeps env v) ∧ soFar.length + max left 1 < 2 ^ 64 ∧
      soFar.length + max left 1 ≤ env.arrayCapMax
  | .map .. => False
  | .foundKey _ => False
  | .foundKeyValue .. => False

theorem keeps_array {env : Env} {a : List Value} (hne : a ≠ []) (hl : a.length < 2 ^ 64)
    (hc : a.length ≤ env.arrayCapMax) (h : ∀ v ∈ a, Keeps env v) : Keeps env (.array a) :=
  fun J hb hj => .array hne hl hc fun v hv =>
    h v hv J (fun b s => hb b (.array hv s)) (fun j s => hj j (.array hv s))

theorem keeps_json {env : Env} {s : List Char} {j : SJValue} (h : env.jsonParse s = some j) : Keeps env (.json j) := fun _ _ hj =>
  .json ⟨(hj j (.refl _) ⟨s, h⟩).1, nofun⟩ (hj j (.refl _) ⟨s, h⟩).2

theorem Keeps.string {env : Env} {s : List Char} (h : Keeps env (.string s)) : StringStorable none s := by
  have := h (fun _ => True) (fun b hb => by cases hb) (fun j hj _ => by cases hj)
  cases this with
  | string hs => exact hs

theorem keeps_timezone {env : Env} {s : List Char} (hs : StringStorable none s) (hn : s ∈ env.tzNames) :
    Keeps env (.timezone s) := Keeps.of fun _ => .timezone hs hn

theorem loops_keeps {env : Env} (hcap : 1 ≤ env.arrayCapMax) {n : Nat} {stack : List DState} {c : Cursor UInt8}
    {o : Out ValueSerError (Value × Cursor UInt8)} (hl : Loops env none n stack c o)
    (hg : ∀ st ∈ stack, KeepsState env st) : ∀ v c', o = .ok (v, c') → Keeps env v := by
  induction hl with
  | empty c => exact nofun
  | err e => exact nofun
  | panic e => exact nofun
  | @done st stack c c1 v1 e =>
    rintro v c' ho
    simp only [Out.ok.injEq, Prod.mk.injEq] at ho
    obtain ⟨rfl, rfl⟩ := ho
    cases st with
    | foundValue w =>
      have hw : Keeps env w := hg (.foundValue w) (by simp)
      simp only [step] at e
      cases ha : afterValue env w stack with
      | ok r =>
        rw [ha] at e
        simp only [Parser.lift_ok, Out.ok.injEq, Prod.mk.injEq] at e
        rw [e.1] at ha
        unfold afterValue at ha
        repeat' split at ha
        all_goals first
          | (simp only [Out.ok.injEq, Sum.inl.injEq] at ha; rw [← ha]; exact hw)
          | simp at ha
      | err x => rw [ha] at e; simp at e
      | panic x => rw [ha] at e; simp at e
    | valueNeeded =>
      simp only [step] at e
      rw [Parser.bind_apply, Out.bind_eq_ok] at e
      obtain ⟨⟨r, c2⟩, e2, e3⟩ := e
      cases r with
      | value v => simp at e3
      | newArray len => simp only at e3; split at e3 <;> simp at e3
      | newMap len byte => simp only at e3; split at e3 <;> simp at e3
      | json => simp at e3
      | timezone => simp at e3
    | array soFar left => simp [step] at e
    | map soFar left byte => exact (hg _ (by simp) : KeepsState env (.map soFar left byte)).elim
    | foundKeyValue k w => exact (hg _ (by simp) : KeepsState env (.foundKeyValue k w)).elim
    | foundKey k => exact (hg _ (by simp) : KeepsState env (.foundKey k)).elim
    | jsonNeeded => simp [step] at e
    | timezoneNeeded => simp [step] at e
  | @more n st stack stack' c c1 o e hn ih =>
    have hrest : ∀ s ∈ stack, KeepsState env s := fun s hs => hg s (by simp [hs])
    rintro v c' rfl
    cases st with
    | valueNeeded =>
      simp only [step] at e
      rw [Parser.bind_apply, Out.bind_eq_ok] at e
      obtain ⟨⟨r, c2⟩, e2, e3⟩ := e
      cases r with
      | value w =>
        simp only [Parser.pure_apply, Out.ok.injEq, Prod.mk.injEq, Sum.inr.injEq] at e3
        obtain ⟨rfl, rfl⟩ := e3
        refine ih ?_ v c' rfl
        intro s hs
        rcases List.mem_cons.mp hs with rfl | hs
        · exact parsePrimitive_yields env _ _ _ e2
        · exact hrest s hs
      | newArray len =>
        simp only at e3
        split at e3
        · simp only [Parser.pure_apply, Out.ok.injEq, Prod.mk.injEq, Sum.inr.injEq] at e3
          obtain ⟨rfl, rfl⟩ := e3
          refine ih ?_ v c' rfl
          intro s hs
          rcases List.mem_cons.mp hs with rfl | hs
          · have hl : len < 2 ^ 64 := parsePrimitive_yields env _ _ _ e2
            refine ⟨by simp, ?_, ?_⟩ <;> simp only [List.length_nil] <;> omega
          · exact hrest s hs
        · simp at e3
      | newMap len byte =>
        simp only at e3
        split at e3
        · simp only [Parser.pure_apply, Out.ok.injEq, Prod.mk.injEq, Sum.inr.injEq] at e3
          obtain ⟨rfl, rfl⟩ := e3
          exact absurd rfl (map_doomed hn _)
        · simp at e3
      | json =>
        simp only [Parser.pure_apply, Out.ok.injEq, Prod.mk.injEq, Sum.inr.injEq] at e3
        obtain ⟨rfl, rfl⟩ := e3
        refine ih ?_ v c' rfl
        intro s hs
        simp only [List.mem_cons] at hs
        rcases hs with rfl | rfl | hs
        · trivial
        · trivial
        · exact hrest s hs
      | timezone =>
        simp only [Parser.pure_apply, Out.ok.injEq, Prod.mk.injEq, Sum.inr.injEq] at e3
        obtain ⟨rfl, rfl⟩ := e3
        refine ih ?_ v c' rfl
        intro s hs
        simp only [List.mem_cons] at hs
        rcases hs with rfl | rfl | hs
        · trivial
        · trivial
        · exact hrest s hs
    | foundValue w =>
      have hw : Keeps env w := hg (.foundValue w) (by simp)
      simp only [step] at e
      have ha : afterValue env w stack = .ok (.inr stack') := by
        cases ha : afterValue env w stack with
        | ok r => rw [ha] at e; simp only [Parser.lift_ok, Out.ok.injEq, Prod.mk.injEq] at e; rw [e.1]
        | err x => rw [ha] at e; simp at e
        | panic x => rw [ha] at e; simp at e
      refine ih ?_ v c' rfl
      cases stack with
      | nil => simp [afterValue] at ha
      | cons s rest =>
        have hs := hrest s (by simp)
        have hr : ∀ s ∈ rest, KeepsState env s := fun s hs => hrest s (by simp [hs])
        cases s with
        | array soFar left =>
          have hb := hs.2.1
          have hc := hs.2.2
          have hall : ∀ v ∈ soFar ++ [w], Keeps env v := by
            intro v hv
            rcases List.mem_append.mp hv with hv | hv
            · exact hs.1 v hv
            · rw [List.mem_singleton.mp hv]; exact hw
          simp only [afterValue] at ha
          split at ha
          · simp only [Out.ok.injEq, Sum.inr.injEq] at ha
            subst ha
            intro s hs
            rcases List.mem_cons.mp hs with rfl | hs
            · exact keeps_array (by simp) (by simp only [List.length_append, List.length_singleton]; omega) (by simp only [List.length_append, List.length_singleton]; omega) hall
            · exact hr s hs
          · simp only [Out.ok.injEq, Sum.inr.injEq] at ha
            subst ha
            intro s hs
            rcases List.mem_cons.mp hs with rfl | hs
            · refine ⟨hall, ?_, ?_⟩ <;> simp only [List.length_append, List.length_singleton] <;> omega
            · exact hr s hs
        | jsonNeeded =>
          simp only [afterValue] at ha
          cases w <;> simp only [reduceCtorEq] at ha
          split at ha
          · simp only [Out.ok.injEq, Sum.inr.injEq] at ha
            subst ha
            intro s hs
            rcases List.mem_cons.mp hs with rfl | hs
            · exact keeps_json (by assumption)
            · exact hr s hs
          · simp at ha
        | timezoneNeeded =>
          simp only [afterValue] at ha
          cases w <;> simp only [reduceCtorEq] at ha
          split at ha
          · simp only [Out.ok.injEq, Sum.inr.injEq] at ha
            subst ha
            intro s hs
            rcases List.mem_cons.mp hs with rfl | hs
            · exact keeps_timezone (hw.string) (by assumption)
            · exact hr s hs
          · simp at ha
        | foundKey k => exact hs.elim
        | map => exact hs.elim
        | foundKeyValue => exact hs.elim
        | valueNeeded => simp [afterValue] at ha
        | foundValue => simp [afterValue] at ha
    | array soFar left =>
      simp only [step, Parser.pure_apply, Out.ok.injEq, Prod.mk.injEq, Sum.inr.injEq] at e
      obtain ⟨rfl, rfl⟩ := e
      refine ih ?_ v c' rfl
      intro s hs
      rcases List.mem_cons.mp hs with rfl | hs
      · trivial
      · exact hg s hs
    | map soFar left byte => exact (hg _ (by simp) : KeepsState env (.map soFar left byte)).elim
    | foundKeyValue k w => exact (hg _ (by simp) : KeepsState env (.foundKeyValue k w)).elim
    | foundKey k => exact (hg _ (by simp) : KeepsState env (.foundKey k)).elim
    | jsonNeeded => simp [step] at e
    | timezoneNeeded => simp [step] at e

end Value

end Souris
