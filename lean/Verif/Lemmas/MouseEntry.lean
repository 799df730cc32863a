import Mathlib.Tactic.IntervalCases
import Verif.Spec.MouseEntry
import Verif.Lemmas.IntegerConv
import Verif.Props.IntegerConv

/-! # The dialogs of `mouse` against their grammar -/

namespace Souris

namespace Mouse

/-! ## Single prompts -/

theorem Typed.ne_nil {α : Type} {R : List Char → α → Prop} {a : α} {as : List Answer} (h : Typed R a as) : as ≠ [] := by
  obtain ⟨bad, s, rfl, _⟩ := h
  simp

theorem input_iff {α : Type} {parse : List Char → Option α} {R : List Char → α → Prop}
    (hR : ∀ s a, s ≠ [] → (parse s = some a ↔ R s a)) {s : List Answer} {a : α} {rest : List Answer} :
    input parse s = .ok (a, rest) ↔ ∃ used, s = used ++ rest ∧ Typed R a used := by
  constructor
  · intro h
    induction s with
    | nil => cases h
    | cons x s ih =>
      cases x with
      | line t =>
        simp only [input] at h
        by_cases ht : t = []
        · simp only [ht, if_true] at h
          obtain ⟨used, rfl, bad, s, rfl, h1, h2⟩ := ih h
          exact ⟨_, rfl, t :: bad, s, rfl, by simpa [ht] using h1, h2⟩
        · simp only [ht, if_false] at h
          cases hp : parse t with
          | some b =>
            rw [hp] at h
            simp only [Out.ok.injEq, Prod.mk.injEq] at h
            obtain ⟨rfl, rfl⟩ := h
            exact ⟨[.line t], rfl, [], t, rfl, by simp, ht, (hR t b ht).mp hp⟩
          | none =>
            rw [hp] at h
            obtain ⟨used, rfl, bad, s, rfl, h1, h2⟩ := ih h
            refine ⟨_, rfl, t :: bad, s, rfl, ?_, h2⟩
            intro u hu
            rcases List.mem_cons.mp hu with rfl | hu
            · exact .inr fun b hb => by rw [(hR u b ht).mpr hb] at hp; cases hp
            · exact h1 u hu
      | _ => cases h
  · rintro ⟨used, rfl, bad, t, rfl, h1, h2, h3⟩
    induction bad with
    | nil => simp [input, h2, (hR t a h2).mpr h3]
    | cons u bad ih =>
      have hu : (if u = [] then none else parse u) = none := by
        by_cases hu : u = []
        · simp [hu]
        · rw [if_neg hu]
          rcases h1 u (by simp) with h | h
          · exact absurd h hu
          · cases hp : parse u with
            | none => rfl
            | some b => exact absurd ((hR u b hu).mp hp) (h b)
      simp only [List.map_cons, List.cons_append, input, hu]
      exact ih fun v hv => h1 v (by simp [hv])

theorem confirm_iff {s : List Answer} {b : Bool} {rest : List Answer} :
    confirm s = .ok (b, rest) ↔ s = .confirm b :: rest := by
  constructor
  · intro h
    cases s with
    | nil => cases h
    | cons x s =>
      cases x with
      | confirm c =>
        simp only [confirm, Out.ok.injEq, Prod.mk.injEq] at h
        obtain ⟨rfl, rfl⟩ := h
        rfl
      | _ => cases h
  · rintro rfl; rfl

theorem select_iff {n : Nat} {s : List Answer} {i : Nat} {rest : List Answer} :
    select n s = .ok (i, rest) ↔ i < n ∧ s = .pick i :: rest := by
  constructor
  · intro h
    cases s with
    | nil => cases h
    | cons x s =>
      cases x with
      | pick j =>
        simp only [select] at h
        by_cases hj : j < n
        · rw [if_pos hj] at h
          simp only [Out.ok.injEq, Prod.mk.injEq] at h
          obtain ⟨rfl, rfl⟩ := h
          exact ⟨hj, rfl⟩
        · rw [if_neg hj] at h; cases h
      | _ => cases h
  · rintro ⟨hi, rfl⟩; simp [select, hi]

theorem charOf_iff (s : List Char) (c : Char) (_ : s ≠ []) : charOf s = some c ↔ Reads.char s c := by
  unfold Reads.char
  match s with
  | [] => simp [charOf]
  | [d] => simp [charOf]
  | d :: e :: t => simp [charOf]

theorem stringOf_iff (s t : List Char) (_ : s ≠ []) : stringOf s = some t ↔ Reads.text s t := by
  simp [stringOf, Reads.text]

theorem integer_iff (s : List Char) (i : Integer) (_ : s ≠ []) :
    (Integer.fromStr s).toOption = some i ↔ Reads.integer s i := by
  unfold Reads.integer
  cases Integer.fromStr s <;> simp [Out.toOption]

theorem by_iff {α : Type} (parse : List Char → Option α) (s : List Char) (a : α) (_ : s ≠ []) :
    parse s = some a ↔ Reads.external parse s a := Iff.rfl

/-! ## Numbers -/

theorem Numeral.plus_iff {cs : List Char} {n : Int} :
    Numeral ('+' :: cs) n ↔ cs ≠ [] ∧ (∀ c ∈ cs, c ∈ decimalDigits) ∧ n = digitsValue cs := by
  constructor
  · intro h
    cases h with
    | plain h hd => exact absurd (hd '+' (by simp)) plus_not_digit
    | plus h hd => exact ⟨h, hd, rfl⟩
  · rintro ⟨h, hd, rfl⟩; exact .plus h hd

theorem Numeral.minus_iff {cs : List Char} {n : Int} :
    Numeral ('-' :: cs) n ↔ cs ≠ [] ∧ (∀ c ∈ cs, c ∈ decimalDigits) ∧ n = -(digitsValue cs : Int) := by
  constructor
  · intro h
    cases h with
    | plain h hd => exact absurd (hd '-' (by simp)) minus_not_digit
    | minus h hd => exact ⟨h, hd, rfl⟩
  · rintro ⟨h, hd, rfl⟩; exact .minus h hd

theorem Numeral.plain_iff {cs : List Char} {n : Int} (hp : cs.head? ≠ some '+') (hm : cs.head? ≠ some '-') :
    Numeral cs n ↔ cs ≠ [] ∧ (∀ c ∈ cs, c ∈ decimalDigits) ∧ n = digitsValue cs := by
  constructor
  · intro h
    cases h with
    | plain h hd => exact ⟨h, hd, rfl⟩
    | plus h hd => exact absurd rfl hp
    | minus h hd => exact absurd rfl hm
  · rintro ⟨h, hd, rfl⟩; exact .plain h hd

theorem natOf_iff (max : Nat) (s : List Char) (n : Nat) (_ : s ≠ []) : natOf max s = some n ↔ Reads.nat max s n := by
  unfold Reads.nat natOf
  split
  · rename_i cs
    rw [parseMagnitude_eq_some, Numeral.plus_iff]
    simp only [Nat.cast_inj, List.head?_cons, ne_eq, Option.some.injEq]
    have : ¬ '+' = '-' := by decide
    tauto
  · rename_i cs hcs
    rw [parseMagnitude_eq_some]
    have hp : s.head? ≠ some '+' := by
      intro h
      cases s with
      | nil => cases h
      | cons c t => simp only [List.head?_cons, Option.some.injEq] at h; exact hcs t (by rw [h])
    constructor
    · rintro ⟨h1, h2, h3, h4⟩
      have hm : s.head? ≠ some '-' := by
        intro h
        cases s with
        | nil => cases h
        | cons c t => simp only [List.head?_cons, Option.some.injEq] at h; exact minus_not_digit (h ▸ h2 c (by simp))
      exact ⟨(Numeral.plain_iff hp hm).mpr ⟨h1, h2, by rw [h3]⟩, hm, h4⟩
    · rintro ⟨h1, hm, h4⟩
      obtain ⟨h1, h2, h3⟩ := (Numeral.plain_iff hp hm).mp h1
      exact ⟨h1, h2, by exact_mod_cast h3, h4⟩

theorem i32Of_iff (s : List Char) (n : Int) (_ : s ≠ []) : i32Of s = some n ↔ Reads.i32 s n := by
  unfold Reads.i32 i32Of
  split
  · rename_i cs
    simp only [Option.map_eq_some_iff, parseMagnitude_eq_some, Numeral.minus_iff]
    constructor
    · rintro ⟨m, ⟨h1, h2, rfl, h4⟩, rfl⟩
      exact ⟨⟨h1, h2, rfl⟩, by omega, by omega⟩
    · rintro ⟨⟨h1, h2, rfl⟩, h4, h5⟩
      exact ⟨_, ⟨h1, h2, rfl, by omega⟩, rfl⟩
  · rename_i cs
    simp only [Option.map_eq_some_iff, parseMagnitude_eq_some, Numeral.plus_iff]
    constructor
    · rintro ⟨m, ⟨h1, h2, rfl, h4⟩, rfl⟩
      exact ⟨⟨h1, h2, rfl⟩, by omega, by omega⟩
    · rintro ⟨⟨h1, h2, rfl⟩, h4, h5⟩
      exact ⟨_, ⟨h1, h2, rfl, by omega⟩, rfl⟩
  · rename_i cs hm hp
    have hm' : s.head? ≠ some '-' := by
      intro h
      cases s with
      | nil => cases h
      | cons c t => simp only [List.head?_cons, Option.some.injEq] at h; exact hm t (by rw [h])
    have hp' : s.head? ≠ some '+' := by
      intro h
      cases s with
      | nil => cases h
      | cons c t => simp only [List.head?_cons, Option.some.injEq] at h; exact hp t (by rw [h])
    simp only [Option.map_eq_some_iff, parseMagnitude_eq_some, Numeral.plain_iff hp' hm']
    constructor
    · rintro ⟨m, ⟨h1, h2, rfl, h4⟩, rfl⟩
      exact ⟨⟨h1, h2, rfl⟩, by omega, by omega⟩
    · rintro ⟨⟨h1, h2, rfl⟩, h4, h5⟩
      exact ⟨_, ⟨h1, h2, rfl, by omega⟩, rfl⟩

/-! ## Files -/

theorem validFile_iff {T : Term} {s rest : List Answer} {b : List UInt8} :
    (∃ path, validFile T s = .ok (path, rest) ∧ readFile T path = .ok b) ↔
      ∃ used, s = used ++ rest ∧ SpellsFile T b used := by
  constructor
  · rintro ⟨path, h, hr⟩
    induction s with
    | nil => cases h
    | cons x s ih =>
      have next (h : validFile T s = .ok (path, rest))
          (hx : ∀ t, x = .line t → t = [] ∨ T.files t = .missing ∨ T.files t = .directory) :
          ∃ used, x :: s = used ++ rest ∧ SpellsFile T b used := by
        obtain ⟨used, rfl, wrong, p, rfl, h1, h2, h3⟩ := ih h
        refine ⟨_, rfl, x :: wrong, p, rfl, h1, h2, fun a ha => ?_⟩
        rcases List.mem_cons.mp ha with rfl | ha
        · exact hx
        · exact h3 a ha
      cases x with
      | line t =>
        simp only [validFile] at h
        by_cases ht : t = []
        · rw [if_pos ht] at h
          exact next h fun u hu => .inl (by cases hu; exact ht)
        · rw [if_neg ht] at h
          have good (hm : T.files t ≠ .missing) (hd : T.files t ≠ .directory) (h : (t, s) = (path, rest)) :
              ∃ used, Answer.line t :: s = used ++ rest ∧ SpellsFile T b used := by
            simp only [Prod.mk.injEq] at h
            obtain ⟨rfl, rfl⟩ := h
            refine ⟨[.line t], rfl, [], t, rfl, ht, ?_, by simp⟩
            unfold readFile at hr
            split at hr
            · rename_i c hc; simp only [Out.ok.injEq] at hr; rw [hc, hr]
            · cases hr
          cases hf : T.files t with
          | missing => rw [hf] at h; exact next h fun u hu => .inr (.inl (by cases hu; exact hf))
          | directory => rw [hf] at h; exact next h fun u hu => .inr (.inr (by cases hu; exact hf))
          | unreadable => rw [hf] at h; exact good (by simp [hf]) (by simp [hf]) (by simpa using h)
          | file c => rw [hf] at h; exact good (by simp [hf]) (by simp [hf]) (by simpa using h)
      | _ => exact next h fun t ht => by cases ht
  · rintro ⟨used, rfl, wrong, path, rfl, h1, h2, h3⟩
    refine ⟨path, ?_, by simp [readFile, h2]⟩
    induction wrong with
    | nil => simp [validFile, h1, h2]
    | cons x wrong ih =>
      have hrest := ih fun a ha => h3 a (by simp [ha])
      cases x with
      | line t =>
        simp only [List.cons_append, validFile]
        rcases h3 _ List.mem_cons_self t rfl with h | h | h
        · rw [if_pos h]; exact hrest
        · by_cases ht : t = []
          · rw [if_pos ht]; exact hrest
          · rw [if_neg ht, h]; exact hrest
        · by_cases ht : t = []
          · rw [if_pos ht]; exact hrest
          · rw [if_neg ht, h]; exact hrest
      | _ => simpa only [List.cons_append, validFile] using hrest

/-! ## Timestamps -/

theorem date_ok {n : Nat} {s rest : List Answer} {y : Int} {m d : Nat} (h : date n s = .ok ((y, m, d), rest)) :
    ∃ (wrong : List (List Answer)) (da : List Answer), s = wrong.flatten ++ da ++ rest ∧ TypedDate y m d da ∧ IsDate y m d ∧
      ∀ w ∈ wrong, ∃ y m d, TypedDate y m d w ∧ ¬ IsDate y m d := by
  induction n generalizing s with
  | zero => cases h
  | succ n ih =>
    simp only [date, Out.bind_eq_ok, Prod.exists] at h
    obtain ⟨y1, s1, h1, m1, s2, h2, d1, s3, h3, h4⟩ := h
    obtain ⟨a1, rfl, t1⟩ := (input_iff i32Of_iff).mp h1
    obtain ⟨a2, rfl, t2⟩ := (input_iff (natOf_iff _)).mp h2
    obtain ⟨a3, rfl, t3⟩ := (input_iff (natOf_iff _)).mp h3
    have ht : TypedDate y1 m1 d1 (a1 ++ a2 ++ a3) := ⟨a1, a2, a3, rfl, t1, t2, t3⟩
    cases hv : Timestamp.dateOk y1 m1 d1 with
    | true =>
      simp only [hv, if_true, Out.ok.injEq, Prod.mk.injEq] at h4
      obtain ⟨⟨rfl, rfl, rfl⟩, rfl⟩ := h4
      exact ⟨[], _, by simp, ht, dateOk_iff.mp hv, by simp⟩
    | false =>
      simp only [hv, Bool.false_eq_true, if_false] at h4
      obtain ⟨wrong, da, rfl, g1, g2, g3⟩ := ih h4
      refine ⟨(a1 ++ a2 ++ a3) :: wrong, da, by simp, g1, g2, fun w hw => ?_⟩
      rcases List.mem_cons.mp hw with rfl | hw
      · exact ⟨_, _, _, ht, dateOk_false.mp hv⟩
      · exact g3 w hw

theorem TypedDate.ne_nil {y : Int} {m d : Nat} {as : List Answer} (h : TypedDate y m d as) : as ≠ [] := by
  obtain ⟨a1, a2, a3, rfl, h1, _⟩ := h
  have := Typed.ne_nil h1
  simp [this]

theorem date_of {wrong : List (List Answer)} {da : List Answer} {y : Int} {m d : Nat} (rest : List Answer)
    (hd : TypedDate y m d da) (hv : IsDate y m d)
    (hw : ∀ w ∈ wrong, ∃ y m d, TypedDate y m d w ∧ ¬ IsDate y m d) :
    ∀ n, wrong.length < n → date n (wrong.flatten ++ da ++ rest) = .ok ((y, m, d), rest) := by
  induction wrong with
  | nil =>
    intro n hn
    obtain ⟨a1, a2, a3, rfl, t1, t2, t3⟩ := hd
    obtain ⟨n, rfl⟩ := Nat.exists_eq_succ_of_ne_zero (by omega : n ≠ 0)
    simp only [List.flatten_nil, List.nil_append, List.append_assoc, date,
      (input_iff i32Of_iff).mpr ⟨a1, rfl, t1⟩, Out.ok_bind,
      (input_iff (natOf_iff u32Max)).mpr ⟨a2, rfl, t2⟩, (input_iff (natOf_iff u32Max)).mpr ⟨a3, rfl, t3⟩, dateOk_iff.mpr hv, if_true]
  | cons w wrong ih =>
    intro n hn
    obtain ⟨n, rfl⟩ := Nat.exists_eq_succ_of_ne_zero (by omega : n ≠ 0)
    obtain ⟨y', m', d', ⟨a1, a2, a3, rfl, t1, t2, t3⟩, hv'⟩ := hw w (by simp)
    have := ih (fun w hw' => hw w (by simp [hw'])) n (by simp at hn; omega)
    simp only [List.append_assoc] at this
    simp only [List.flatten_cons, List.append_assoc, date,
      (input_iff i32Of_iff).mpr ⟨a1, rfl, t1⟩, Out.ok_bind,
      (input_iff (natOf_iff u32Max)).mpr ⟨a2, rfl, t2⟩, (input_iff (natOf_iff u32Max)).mpr ⟨a3, rfl, t3⟩, dateOk_false.mpr hv',
      Bool.false_eq_true, if_false, this]

theorem time_ok {n : Nat} {s rest : List Answer} {h m sec ns : Nat} (e : time n s = .ok ((h, m, sec, ns), rest)) :
    ∃ (wrong : List (List Answer)) (ta : List Answer) (ms : Nat), s = wrong.flatten ++ ta ++ rest ∧ ns = ms * 1000000 ∧ TypedTime h m sec ms ta ∧
      IsTime h m sec (ms * 1000000) ∧
      ∀ w ∈ wrong, ∃ h m s ms, TypedTime h m s ms w ∧ ¬ IsTime h m s (ms * 1000000) := by
  induction n generalizing s with
  | zero => cases e
  | succ n ih =>
    simp only [time, Out.bind_eq_ok, Prod.exists] at e
    obtain ⟨y1, s1, h1, m1, s2, h2, d1, s3, h3, d4, s4, h4, h5⟩ := e
    obtain ⟨a1, rfl, t1⟩ := (input_iff (natOf_iff _)).mp h1
    obtain ⟨a2, rfl, t2⟩ := (input_iff (natOf_iff _)).mp h2
    obtain ⟨a3, rfl, t3⟩ := (input_iff (natOf_iff _)).mp h3
    obtain ⟨a4, rfl, t4⟩ := (input_iff (natOf_iff _)).mp h4
    have ht : TypedTime y1 m1 d1 d4 (a1 ++ a2 ++ a3 ++ a4) := ⟨a1, a2, a3, a4, rfl, t1, t2, t3, t4⟩
    cases hv : Timestamp.timeOk y1 m1 d1 (d4 * 1000000) with
    | true =>
      simp only [hv, if_true, Out.ok.injEq, Prod.mk.injEq] at h5
      obtain ⟨⟨rfl, rfl, rfl, rfl⟩, rfl⟩ := h5
      exact ⟨[], _, _, by simp, rfl, ht, timeOk_iff.mp hv, by simp⟩
    | false =>
      simp only [hv, Bool.false_eq_true, if_false] at h5
      obtain ⟨wrong, ta, ms, rfl, rfl, g1, g2, g3⟩ := ih h5
      refine ⟨(a1 ++ a2 ++ a3 ++ a4) :: wrong, ta, ms, by simp, rfl, g1, g2, fun w hw => ?_⟩
      rcases List.mem_cons.mp hw with rfl | hw
      · exact ⟨_, _, _, _, ht, timeOk_false.mp hv⟩
      · exact g3 w hw

theorem TypedTime.ne_nil {h m s ms : Nat} {as : List Answer} (e : TypedTime h m s ms as) : as ≠ [] := by
  obtain ⟨a1, a2, a3, a4, rfl, h1, _⟩ := e
  have := Typed.ne_nil h1
  simp [this]

theorem time_of {wrong : List (List Answer)} {ta : List Answer} {h m sec ms : Nat} (rest : List Answer)
    (hd : TypedTime h m sec ms ta) (hv : IsTime h m sec (ms * 1000000))
    (hw : ∀ w ∈ wrong, ∃ h m s ms, TypedTime h m s ms w ∧ ¬ IsTime h m s (ms * 1000000)) :
    ∀ n, wrong.length < n → time n (wrong.flatten ++ ta ++ rest) = .ok ((h, m, sec, ms * 1000000), rest) := by
  induction wrong with
  | nil =>
    intro n hn
    obtain ⟨a1, a2, a3, a4, rfl, t1, t2, t3, t4⟩ := hd
    obtain ⟨n, rfl⟩ := Nat.exists_eq_succ_of_ne_zero (by omega : n ≠ 0)
    simp only [List.flatten_nil, List.nil_append, List.append_assoc, time,
      (input_iff (natOf_iff u32Max)).mpr ⟨a1, rfl, t1⟩, Out.ok_bind, (input_iff (natOf_iff u32Max)).mpr ⟨a2, rfl, t2⟩,
      (input_iff (natOf_iff u32Max)).mpr ⟨a3, rfl, t3⟩, (input_iff (natOf_iff u32Max)).mpr ⟨a4, rfl, t4⟩, timeOk_iff.mpr hv, if_true]
  | cons w wrong ih =>
    intro n hn
    obtain ⟨n, rfl⟩ := Nat.exists_eq_succ_of_ne_zero (by omega : n ≠ 0)
    obtain ⟨h', m', s', ms', ⟨a1, a2, a3, a4, rfl, t1, t2, t3, t4⟩, hv'⟩ := hw w (by simp)
    have := ih (fun w hw' => hw w (by simp [hw'])) n (by simp at hn; omega)
    simp only [List.append_assoc] at this
    simp only [List.flatten_cons, List.append_assoc, time,
      (input_iff (natOf_iff u32Max)).mpr ⟨a1, rfl, t1⟩, Out.ok_bind, (input_iff (natOf_iff u32Max)).mpr ⟨a2, rfl, t2⟩,
      (input_iff (natOf_iff u32Max)).mpr ⟨a3, rfl, t3⟩, (input_iff (natOf_iff u32Max)).mpr ⟨a4, rfl, t4⟩, timeOk_false.mpr hv',
      Bool.false_eq_true, if_false, this]

theorem length_le_flatten {α : Type} {l : List (List α)} (h : ∀ x ∈ l, x ≠ []) : l.length ≤ l.flatten.length := by
  induction l with
  | nil => simp
  | cons x l ih =>
    have := ih fun y hy => h y (by simp [hy])
    have := List.length_pos_iff.mpr (h x (by simp))
    simp only [List.length_cons, List.flatten_cons, List.length_append]
    omega

theorem timestamp_iff {env : Env} {T : Term} {s rest : List Answer} {t : Timestamp} :
    timestamp env T s = .ok (t, rest) ↔ ∃ used, s = used ++ rest ∧ SpellsTimestamp env T t used := by
  constructor
  · intro e
    simp only [timestamp, Out.bind_eq_ok, Prod.exists] at e
    obtain ⟨now, s1, h1, e⟩ := e
    rw [confirm_iff] at h1
    subst h1
    cases now with
    | true =>
      simp only [if_true, Out.pure_eq, Out.ok.injEq, Prod.mk.injEq] at e
      obtain ⟨rfl, rfl⟩ := e
      exact ⟨_, rfl, .now⟩
    | false =>
      simp only [Bool.false_eq_true, if_false, Out.bind_eq_ok, Prod.exists] at e
      obtain ⟨fmt, s2, h2, e⟩ := e
      rw [confirm_iff] at h2
      subst h2
      cases fmt with
      | true =>
        simp only [if_true] at e
        obtain ⟨used, rfl, h⟩ := (input_iff (by_iff _)).mp e
        exact ⟨_, rfl, .format h⟩
      | false =>
        simp only [Bool.false_eq_true, if_false, Out.bind_eq_ok, Prod.exists] at e
        obtain ⟨y, mo, d, s3, h3, h, mi, sec, n, s4, h4, e⟩ := e
        simp only [Out.pure_eq, Out.ok.injEq, Prod.mk.injEq] at e
        obtain ⟨rfl, rfl⟩ := e
        obtain ⟨wd, da, rfl, d1, d2, d3⟩ := date_ok h3
        obtain ⟨wt, ta, ms, rfl, rfl, t1, t2, t3⟩ := time_ok h4
        exact ⟨_, by simp, .parts d3 d1 d2 t3 t1 t2⟩
  · rintro ⟨used, rfl, h⟩
    cases h with
    | now => rfl
    | format h =>
      simp only [timestamp, List.cons_append, confirm, Out.ok_bind, Bool.false_eq_true, if_false, if_true]
      exact (input_iff (by_iff _)).mpr ⟨_, rfl, h⟩
    | @parts y mo d h mi s ms wd wt da ta hwd hd hdv hwt ht htv =>
      have l1 := length_le_flatten fun w hw => by
        obtain ⟨_, _, _, h, _⟩ := hwd w hw; exact TypedDate.ne_nil h
      have l2 := length_le_flatten fun w hw => by
        obtain ⟨_, _, _, _, h, _⟩ := hwt w hw; exact TypedTime.ne_nil h
      have e1 := date_of ((wt.flatten ++ ta) ++ rest) hd hdv hwd
        ((wd.flatten ++ da ++ ((wt.flatten ++ ta) ++ rest)).length + 1) (by simp only [List.length_append]; omega)
      have e2 := time_of rest ht htv hwt ((wt.flatten ++ ta ++ rest).length + 1)
        (by simp only [List.length_append]; omega)
      simp only [timestamp, List.cons_append, confirm, Out.ok_bind, Bool.false_eq_true, if_false]
      rw [show wd.flatten ++ da ++ (wt.flatten ++ ta) ++ rest = wd.flatten ++ da ++ ((wt.flatten ++ ta) ++ rest) by simp,
        e1]
      simp only [Out.ok_bind, e2]
      rfl

theorem imaginary_iff {T : Term} {s rest : List Answer} {z : Imaginary} :
    imaginary T s = .ok (z, rest) ↔ ∃ used, s = used ++ rest ∧ SpellsImaginary T z used := by
  constructor
  · intro e
    simp only [imaginary, Out.bind_eq_ok, Prod.exists] at e
    obtain ⟨form, s1, h1, e⟩ := e
    obtain ⟨hf, rfl⟩ := select_iff.mp h1
    by_cases h0 : form = 0
    · subst h0
      simp only [if_true, Out.bind_eq_ok, Prod.exists] at e
      obtain ⟨m, s2, h2, a, s3, h3, e⟩ := e
      simp only [Out.pure_eq, Out.ok.injEq, Prod.mk.injEq] at e
      obtain ⟨rfl, rfl⟩ := e
      obtain ⟨u1, rfl, t1⟩ := (input_iff (by_iff _)).mp h2
      obtain ⟨u2, rfl, t2⟩ := (input_iff (by_iff _)).mp h3
      exact ⟨_, by simp, .polar t1 t2⟩
    · have h1 : form = 1 := by omega
      subst h1
      simp only [one_ne_zero, if_false, Out.bind_eq_ok, Prod.exists] at e
      obtain ⟨m, s2, h2, a, s3, h3, e⟩ := e
      simp only [Out.pure_eq, Out.ok.injEq, Prod.mk.injEq] at e
      obtain ⟨rfl, rfl⟩ := e
      obtain ⟨u1, rfl, t1⟩ := (input_iff integer_iff).mp h2
      obtain ⟨u2, rfl, t2⟩ := (input_iff integer_iff).mp h3
      exact ⟨_, by simp, .cartesian t1 t2⟩
  · rintro ⟨used, rfl, h⟩
    cases h with
    | polar h1 h2 =>
      simp [imaginary, select, (input_iff (by_iff T.f64)).mpr ⟨_, rfl, h1⟩, (input_iff (by_iff T.f64)).mpr ⟨_, rfl, h2⟩]
    | cartesian h1 h2 =>
      simp [imaginary, select, (input_iff integer_iff).mpr ⟨_, rfl, h1⟩, (input_iff integer_iff).mpr ⟨_, rfl, h2⟩]

/-! ## Lists of values -/

section
variable {item : Entry Value} {S : Value → List Answer → Prop}

theorem items_ok (hi : ∀ s v rest, item s = .ok (v, rest) → ∃ used, s = used ++ rest ∧ S v used) {n : Nat}
    {s rest : List Answer} {vs : List Value} (h : items item n s = .ok (vs, rest)) :
    ∃ ps : List (Value × List Answer), ps.length = n ∧ vs = ps.map Prod.fst ∧ s = (ps.map Prod.snd).flatten ++ rest ∧
      ∀ p ∈ ps, S p.1 p.2 := by
  induction n generalizing s vs with
  | zero =>
    simp only [items, Out.ok.injEq, Prod.mk.injEq] at h
    obtain ⟨rfl, rfl⟩ := h
    exact ⟨[], rfl, rfl, rfl, by simp⟩
  | succ n ih =>
    simp only [items, Out.bind_eq_ok, Prod.exists, Out.pure_eq, Out.ok.injEq, Prod.mk.injEq] at h
    obtain ⟨v, s1, h1, vs', s2, h2, rfl, rfl⟩ := h
    obtain ⟨used, rfl, hs⟩ := hi _ _ _ h1
    obtain ⟨ps, rfl, rfl, rfl, hp⟩ := ih h2
    refine ⟨(v, used) :: ps, rfl, rfl, by simp, fun p hp' => ?_⟩
    rcases List.mem_cons.mp hp' with rfl | hp'
    · exact hs
    · exact hp p hp'

theorem items_of {ps : List (Value × List Answer)} (h : ∀ p ∈ ps, ∀ rest, item (p.2 ++ rest) = .ok (p.1, rest))
    (rest : List Answer) : items item ps.length ((ps.map Prod.snd).flatten ++ rest) = .ok (ps.map Prod.fst, rest) := by
  induction ps with
  | nil => rfl
  | cons p ps ih =>
    simp only [List.length_cons, List.map_cons, List.flatten_cons, List.append_assoc, items, h p (by simp),
      Out.ok_bind, ih fun q hq => h q (by simp [hq])]
    rfl

theorem itemsUntil_ok (hi : ∀ s v rest, item s = .ok (v, rest) → ∃ used, s = used ++ rest ∧ S v used) {n : Nat}
    {s rest : List Answer} {vs : List Value} (h : itemsUntil item n s = .ok (vs, rest)) :
    ∃ (ps : List (Value × List Answer)) (l : Value × List Answer), vs = ps.map Prod.fst ++ [l.1] ∧
      s = ps.flatMap (fun p => p.2 ++ [.confirm false]) ++ (l.2 ++ [.confirm true]) ++ rest ∧
      (∀ p ∈ ps, S p.1 p.2) ∧ S l.1 l.2 := by
  induction n generalizing s vs with
  | zero => cases h
  | succ n ih =>
    simp only [itemsUntil, Out.bind_eq_ok, Prod.exists] at h
    obtain ⟨v, s1, h1, all, s2, h2, h⟩ := h
    obtain ⟨used, rfl, hs⟩ := hi _ _ _ h1
    rw [confirm_iff] at h2
    subst h2
    cases all with
    | true =>
      simp only [if_true, Out.pure_eq, Out.ok.injEq, Prod.mk.injEq] at h
      obtain ⟨rfl, rfl⟩ := h
      exact ⟨[], (v, used), rfl, by simp, by simp, hs⟩
    | false =>
      simp only [Bool.false_eq_true, if_false, Out.bind_eq_ok, Prod.exists, Out.pure_eq, Out.ok.injEq,
        Prod.mk.injEq] at h
      obtain ⟨vs', s3, h3, rfl, rfl⟩ := h
      obtain ⟨ps, l, rfl, rfl, hp, hl⟩ := ih h3
      refine ⟨(v, used) :: ps, l, rfl, by simp, fun p hp' => ?_, hl⟩
      rcases List.mem_cons.mp hp' with rfl | hp'
      · exact hs
      · exact hp p hp'

theorem itemsUntil_of {ps : List (Value × List Answer)} {l : Value × List Answer}
    (h : ∀ p ∈ ps, ∀ rest, item (p.2 ++ rest) = .ok (p.1, rest)) (hl : ∀ rest, item (l.2 ++ rest) = .ok (l.1, rest))
    (rest : List Answer) {n : Nat} (hn : ps.length < n) :
    itemsUntil item n (ps.flatMap (fun p => p.2 ++ [.confirm false]) ++ (l.2 ++ [.confirm true]) ++ rest) =
      .ok (ps.map Prod.fst ++ [l.1], rest) := by
  induction ps generalizing n with
  | nil =>
    obtain ⟨n, rfl⟩ := Nat.exists_eq_succ_of_ne_zero (by omega : n ≠ 0)
    simp [itemsUntil, hl, confirm]
  | cons p ps ih =>
    obtain ⟨n, rfl⟩ := Nat.exists_eq_succ_of_ne_zero (by omega : n ≠ 0)
    have := ih (fun q hq => h q (by simp [hq])) (n := n) (by simp at hn; omega)
    simp only [List.append_assoc, List.cons_append, List.nil_append] at this
    simp only [List.flatMap_cons, List.append_assoc, List.cons_append, List.nil_append, itemsUntil, h p (by simp),
      Out.ok_bind, confirm, Bool.false_eq_true, if_false, this]
    rfl

/-- Insert one after the other. -/
def inserted (m : List (List Char × Value)) (ps : List (List Char × Value)) : List (List Char × Value) :=
  ps.foldl (fun m p => AMap.insert p.1 p.2 m) m

theorem pairs_ok (hi : ∀ s v rest, item s = .ok (v, rest) → ∃ used, s = used ++ rest ∧ S v used) {n : Nat}
    {s rest : List Answer} {m m' : List (List Char × Value)} (h : pairs item n m s = .ok (m', rest)) :
    ∃ ps : List ((List Char × List Answer) × (Value × List Answer)), ps.length = n ∧
      m' = inserted m (ps.map fun p => (p.1.1, p.2.1)) ∧ s = ps.flatMap (fun p => p.1.2 ++ p.2.2) ++ rest ∧
      (∀ p ∈ ps, Typed Reads.text p.1.1 p.1.2) ∧ ∀ p ∈ ps, S p.2.1 p.2.2 := by
  induction n generalizing s m with
  | zero =>
    simp only [pairs, Out.ok.injEq, Prod.mk.injEq] at h
    obtain ⟨rfl, rfl⟩ := h
    exact ⟨[], rfl, rfl, rfl, by simp, by simp⟩
  | succ n ih =>
    simp only [pairs, Out.bind_eq_ok, Prod.exists] at h
    obtain ⟨k, s1, h1, v, s2, h2, h⟩ := h
    obtain ⟨ku, rfl, hk⟩ := (input_iff stringOf_iff).mp h1
    obtain ⟨used, rfl, hs⟩ := hi _ _ _ h2
    obtain ⟨ps, rfl, rfl, rfl, hp1, hp2⟩ := ih h
    refine ⟨((k, ku), (v, used)) :: ps, rfl, rfl, by simp, fun p hp' => ?_, fun p hp' => ?_⟩ <;>
      rcases List.mem_cons.mp hp' with rfl | hp'
    · exact hk
    · exact hp1 p hp'
    · exact hs
    · exact hp2 p hp'

theorem pairs_of {ps : List ((List Char × List Answer) × (Value × List Answer))}
    (hk : ∀ p ∈ ps, Typed Reads.text p.1.1 p.1.2) (h : ∀ p ∈ ps, ∀ rest, item (p.2.2 ++ rest) = .ok (p.2.1, rest))
    (m : List (List Char × Value)) (rest : List Answer) :
    pairs item ps.length m (ps.flatMap (fun p => p.1.2 ++ p.2.2) ++ rest) =
      .ok (inserted m (ps.map fun p => (p.1.1, p.2.1)), rest) := by
  induction ps generalizing m with
  | nil => rfl
  | cons p ps ih =>
    have := ih (fun q hq => hk q (by simp [hq])) (fun q hq => h q (by simp [hq])) (AMap.insert p.1.1 p.2.1 m)
    simp only [List.length_cons, List.flatMap_cons, List.append_assoc, pairs,
      (input_iff stringOf_iff).mpr ⟨_, rfl, hk p (by simp)⟩, Out.ok_bind, h p (by simp), this]
    rfl

theorem pairsUntil_ok (hi : ∀ s v rest, item s = .ok (v, rest) → ∃ used, s = used ++ rest ∧ S v used) {n : Nat}
    {s rest : List Answer} {m m' : List (List Char × Value)} (h : pairsUntil item n m s = .ok (m', rest)) :
    ∃ ps : List ((List Char × List Answer) × (Value × List Answer)),
      m' = inserted m (ps.map fun p => (p.1.1, p.2.1)) ∧
      s = ps.flatMap (fun p => .confirm false :: (p.1.2 ++ p.2.2)) ++ [.confirm true] ++ rest ∧
      (∀ p ∈ ps, Typed Reads.text p.1.1 p.1.2) ∧ ∀ p ∈ ps, S p.2.1 p.2.2 := by
  induction n generalizing s m with
  | zero => cases h
  | succ n ih =>
    simp only [pairsUntil, Out.bind_eq_ok, Prod.exists] at h
    obtain ⟨all, s0, h0, h⟩ := h
    rw [confirm_iff] at h0
    subst h0
    cases all with
    | true =>
      simp only [if_true, Out.pure_eq, Out.ok.injEq, Prod.mk.injEq] at h
      obtain ⟨rfl, rfl⟩ := h
      exact ⟨[], rfl, by simp, by simp, by simp⟩
    | false =>
      simp only [Bool.false_eq_true, if_false, Out.bind_eq_ok, Prod.exists] at h
      obtain ⟨k, s1, h1, v, s2, h2, h⟩ := h
      obtain ⟨ku, rfl, hk⟩ := (input_iff stringOf_iff).mp h1
      obtain ⟨used, rfl, hs⟩ := hi _ _ _ h2
      obtain ⟨ps, rfl, rfl, hp1, hp2⟩ := ih h
      refine ⟨((k, ku), (v, used)) :: ps, rfl, by simp, fun p hp' => ?_, fun p hp' => ?_⟩ <;>
        rcases List.mem_cons.mp hp' with rfl | hp'
      · exact hk
      · exact hp1 p hp'
      · exact hs
      · exact hp2 p hp'

theorem pairsUntil_of {ps : List ((List Char × List Answer) × (Value × List Answer))}
    (hk : ∀ p ∈ ps, Typed Reads.text p.1.1 p.1.2) (h : ∀ p ∈ ps, ∀ rest, item (p.2.2 ++ rest) = .ok (p.2.1, rest))
    (m : List (List Char × Value)) (rest : List Answer) {n : Nat} (hn : ps.length < n) :
    pairsUntil item n m (ps.flatMap (fun p => .confirm false :: (p.1.2 ++ p.2.2)) ++ [.confirm true] ++ rest) =
      .ok (inserted m (ps.map fun p => (p.1.1, p.2.1)), rest) := by
  induction ps generalizing m n with
  | nil =>
    obtain ⟨n, rfl⟩ := Nat.exists_eq_succ_of_ne_zero (by omega : n ≠ 0)
    rfl
  | cons p ps ih =>
    obtain ⟨n, rfl⟩ := Nat.exists_eq_succ_of_ne_zero (by omega : n ≠ 0)
    have := ih (fun q hq => hk q (by simp [hq])) (fun q hq => h q (by simp [hq])) (AMap.insert p.1.1 p.2.1 m)
      (n := n) (by simp at hn; omega)
    simp only [List.append_assoc, List.cons_append, List.nil_append] at this
    simp only [List.flatMap_cons, List.append_assoc, List.cons_append, List.nil_append, pairsUntil, confirm,
      Out.ok_bind, Bool.false_eq_true, if_false,
      (input_iff stringOf_iff).mpr ⟨_, rfl, hk p (by simp)⟩, h p (by simp), this]
    rfl

end

/-! ## Values -/

theorem Spells.ne_nil {env : Env} {T : Term} {v : Value} {as : List Answer} (h : Spells env T v as) : as ≠ [] := by
  cases h <;> simp

theorem valueN_ok {env : Env} {T : Term} {n : Nat} : ∀ {s : List Answer} {v : Value} {rest : List Answer},
    valueN env T n s = .ok (v, rest) → ∃ used, s = used ++ rest ∧ Spells env T v used := by
  induction n with
  | zero => intro s v rest h; cases h
  | succ n ih =>
    intro s v rest h
    simp only [valueN, Out.bind_eq_ok, Prod.exists] at h
    obtain ⟨i, s1, h1, h⟩ := h
    obtain ⟨hi, rfl⟩ := select_iff.mp h1
    have hi' : i < 16 := hi
    clear h1 hi
    interval_cases i <;>
      simp only [tys, List.getElem?_cons_zero, List.getElem?_cons_succ, Out.bind_eq_ok, Prod.exists, Out.pure_eq,
        Out.ok.injEq, Prod.mk.injEq] at h
    · obtain ⟨c, s2, h2, rfl, rfl⟩ := h
      obtain ⟨used, rfl, t⟩ := (input_iff charOf_iff).mp h2
      exact ⟨_, rfl, .character t⟩
    · obtain ⟨c, s2, h2, rfl, rfl⟩ := h
      obtain ⟨used, rfl, t⟩ := (input_iff stringOf_iff).mp h2
      exact ⟨_, rfl, .string t⟩
    · obtain ⟨path, s2, h2, b, h3, rfl, rfl⟩ := h
      obtain ⟨used, rfl, t⟩ := validFile_iff.mp ⟨path, h2, h3⟩
      exact ⟨_, rfl, .binary t⟩
    · obtain ⟨b, s2, h2, rfl, rfl⟩ := h
      obtain ⟨hb, rfl⟩ := select_iff.mp h2
      interval_cases b
      · exact ⟨_, rfl, .false⟩
      · exact ⟨_, rfl, .true⟩
    · obtain ⟨c, s2, h2, rfl, rfl⟩ := h
      obtain ⟨used, rfl, t⟩ := (input_iff integer_iff).mp h2
      exact ⟨_, rfl, .integer t⟩
    · obtain ⟨c, s2, h2, rfl, rfl⟩ := h
      obtain ⟨used, rfl, t⟩ := imaginary_iff.mp h2
      exact ⟨_, rfl, .imaginary t⟩
    · obtain ⟨c, s2, h2, rfl, rfl⟩ := h
      obtain ⟨used, rfl, t⟩ := timestamp_iff.mp h2
      exact ⟨_, rfl, .timestamp t⟩
    · obtain ⟨c, s2, h2, rfl, rfl⟩ := h
      obtain ⟨used, rfl, t⟩ := (input_iff (by_iff _)).mp h2
      exact ⟨_, rfl, .json t⟩
    · obtain ⟨rfl, rfl⟩ := h
      exact ⟨[.pick 8], rfl, .null⟩
    · obtain ⟨c, s2, h2, rfl, rfl⟩ := h
      obtain ⟨used, rfl, t⟩ := (input_iff (by_iff _)).mp h2
      exact ⟨_, rfl, .double t⟩
    · obtain ⟨known, s2, h2, h⟩ := h
      rw [confirm_iff] at h2
      subst h2
      cases known with
      | true =>
        simp only [if_true, Out.bind_eq_ok, Prod.exists, Out.ok.injEq, Prod.mk.injEq] at h
        obtain ⟨k, s3, h3, vs, s4, h4, rfl, rfl⟩ := h
        obtain ⟨used, rfl, t⟩ := (input_iff (natOf_iff _)).mp h3
        obtain ⟨ps, rfl, rfl, rfl, hp⟩ := items_ok (fun s v rest => ih) h4
        exact ⟨_, by simp, .array ps t hp⟩
      | false =>
        simp only [Bool.false_eq_true, if_false, Out.bind_eq_ok, Prod.exists, Out.ok.injEq, Prod.mk.injEq] at h
        obtain ⟨vs, s4, h4, rfl, rfl⟩ := h
        obtain ⟨ps, l, rfl, hs, hp, hl⟩ := itemsUntil_ok (fun s v rest => ih) h4
        exact ⟨_, by rw [hs]; simp, .openArray ps l hp hl⟩
    · obtain ⟨known, s2, h2, h⟩ := h
      rw [confirm_iff] at h2
      subst h2
      cases known with
      | true =>
        simp only [if_true, Out.bind_eq_ok, Prod.exists, Out.ok.injEq, Prod.mk.injEq] at h
        obtain ⟨k, s3, h3, vs, s4, h4, rfl, rfl⟩ := h
        obtain ⟨used, rfl, t⟩ := (input_iff (natOf_iff _)).mp h3
        obtain ⟨ps, rfl, rfl, rfl, hk, hp⟩ := pairs_ok (fun s v rest => ih) h4
        exact ⟨_, by simp, .map ps t hk hp⟩
      | false =>
        simp only [Bool.false_eq_true, if_false, Out.bind_eq_ok, Prod.exists, Out.ok.injEq, Prod.mk.injEq] at h
        obtain ⟨vs, s4, h4, rfl, rfl⟩ := h
        obtain ⟨ps, rfl, hs, hk, hp⟩ := pairsUntil_ok (fun s v rest => ih) h4
        exact ⟨_, by rw [hs]; simp, .openMap ps hk hp⟩
    · obtain ⟨j, s2, h2, h⟩ := h
      obtain ⟨hj, rfl⟩ := select_iff.mp h2
      cases hz : env.tzNames[j]? with
      | none => rw [hz] at h; cases h
      | some z =>
        rw [hz] at h
        simp only [Out.ok.injEq, Prod.mk.injEq] at h
        obtain ⟨rfl, rfl⟩ := h
        exact ⟨[.pick 12, .pick j], rfl, .timezone hz⟩
    · obtain ⟨a, b, c, d, s2, h2, rfl, rfl⟩ := h
      obtain ⟨used, rfl, t⟩ := (input_iff (by_iff _)).mp h2
      exact ⟨_, rfl, .ipv4 t⟩
    · obtain ⟨a, b, c, d, e, f, g, h', s2, h2, rfl, rfl⟩ := h
      obtain ⟨used, rfl, t⟩ := (input_iff (by_iff _)).mp h2
      exact ⟨_, rfl, .ipv6 t⟩
    · obtain ⟨c, s2, h2, rfl, rfl⟩ := h
      obtain ⟨used, rfl, t⟩ := (input_iff (by_iff _)).mp h2
      exact ⟨_, rfl, .single t⟩

theorem length_le_flatMap {α β : Type} {f : β → List α} {l : List β} (h : ∀ x ∈ l, f x ≠ []) :
    l.length ≤ (l.flatMap f).length := by
  rw [List.flatMap_def]
  refine le_trans (le_of_eq (by simp)) (length_le_flatten (l := l.map f) ?_)
  intro x hx
  obtain ⟨y, hy, rfl⟩ := List.mem_map.mp hx
  exact h y hy

theorem length_flatten_mem {α : Type} {l : List (List α)} {x : List α} (h : x ∈ l) : x.length ≤ l.flatten.length := by
  induction l with
  | nil => cases h
  | cons y l ih =>
    simp only [List.flatten_cons, List.length_append]
    rcases List.mem_cons.mp h with rfl | h
    · omega
    · have := ih h; omega

theorem length_flatMap_mem {α β : Type} {f : β → List α} {l : List β} {x : β} (h : x ∈ l) :
    (f x).length ≤ (l.flatMap f).length := by
  rw [List.flatMap_def]
  exact length_flatten_mem (List.mem_map_of_mem h)

theorem valueN_of {env : Env} {T : Term} {v : Value} {used : List Answer} (h : Spells env T v used) :
    ∀ n, used.length ≤ n → ∀ rest, valueN env T n (used ++ rest) = .ok (v, rest) := by
  induction h with
  | character h | string h | integer h | json h | double h | single h | ipv4 h | ipv6 h =>
    intro n hn rest
    obtain ⟨n, rfl⟩ := Nat.exists_eq_succ_of_ne_zero (by simp at hn; omega : n ≠ 0)
    first
      | simp [valueN, select, tys, (input_iff charOf_iff).mpr ⟨_, rfl, h⟩]
      | simp [valueN, select, tys, (input_iff stringOf_iff).mpr ⟨_, rfl, h⟩]
      | simp [valueN, select, tys, (input_iff integer_iff).mpr ⟨_, rfl, h⟩]
      | simp [valueN, select, tys, (input_iff (by_iff _)).mpr ⟨_, rfl, h⟩]
  | binary h =>
    intro n hn rest
    obtain ⟨n, rfl⟩ := Nat.exists_eq_succ_of_ne_zero (by simp at hn; omega : n ≠ 0)
    obtain ⟨path, h1, h2⟩ := validFile_iff.mpr ⟨_, rfl (a := _ ++ rest), h⟩
    simp [valueN, select, tys, h1, h2]
  | false | true | null =>
    intro n hn rest
    obtain ⟨n, rfl⟩ := Nat.exists_eq_succ_of_ne_zero (by simp at hn; omega : n ≠ 0)
    rfl
  | imaginary h =>
    intro n hn rest
    obtain ⟨n, rfl⟩ := Nat.exists_eq_succ_of_ne_zero (by simp at hn; omega : n ≠ 0)
    simp [valueN, select, tys, imaginary_iff.mpr ⟨_, rfl, h⟩]
  | timestamp h =>
    intro n hn rest
    obtain ⟨n, rfl⟩ := Nat.exists_eq_succ_of_ne_zero (by simp at hn; omega : n ≠ 0)
    simp [valueN, select, tys, timestamp_iff.mpr ⟨_, rfl, h⟩]
  | timezone h =>
    intro n hn rest
    obtain ⟨n, rfl⟩ := Nat.exists_eq_succ_of_ne_zero (by simp at hn; omega : n ≠ 0)
    have hlt := (List.getElem?_eq_some_iff.mp h).1
    simp only [valueN, select, tys, List.cons_append, List.nil_append, List.length_cons, List.length_nil]
    simp only [Nat.reduceAdd, Nat.reduceLT, if_true, Out.ok_bind, List.getElem?_cons_succ, List.getElem?_cons_zero, hlt, h]
    rfl
  | array items hn' h ih =>
    intro n hn rest
    obtain ⟨n, rfl⟩ := Nat.exists_eq_succ_of_ne_zero (by simp at hn; omega : n ≠ 0)
    have hi := items_of (item := valueN env T n) (ps := items) (fun p hp rest => ih p hp n (by
      have := length_flatten_mem (List.mem_map_of_mem (f := Prod.snd) hp)
      simp only [List.length_cons, List.length_append] at hn
      omega) rest) rest
    simp [valueN, select, tys, confirm, (input_iff (natOf_iff usizeMax)).mpr ⟨_, rfl, hn'⟩, hi]
  | openArray items last h hl ih ihl =>
    intro n hn rest
    obtain ⟨n, rfl⟩ := Nat.exists_eq_succ_of_ne_zero (by simp at hn; omega : n ≠ 0)
    simp only [List.length_cons, List.length_append] at hn
    have hi := itemsUntil_of (item := valueN env T n) (ps := items) (l := last) (fun p hp rest => ih p hp n (by
      have := length_flatMap_mem (f := fun p : Value × List Answer => p.2 ++ [Answer.confirm Bool.false]) hp
      simp only [List.length_append] at this
      omega) rest) (fun rest => ihl n (by omega) rest) rest
      (n := (items.flatMap (fun p : Value × List Answer => p.2 ++ [Answer.confirm Bool.false]) ++
        (last.2 ++ [Answer.confirm Bool.true]) ++ rest).length + 1) (by
        have := length_le_flatMap (f := fun p : Value × List Answer => p.2 ++ [Answer.confirm Bool.false]) (l := items)
          (by simp)
        simp only [List.length_append] at this ⊢
        omega)
    simp only [List.cons_append, valueN, select, tys, List.length_cons, List.length_nil, confirm]
    simp only [Nat.reduceAdd, Nat.reduceLT, if_true, Out.ok_bind, List.getElem?_cons_succ, List.getElem?_cons_zero,
      Bool.false_eq_true, if_false, hi]
    rfl
  | map items hn' hk h ih =>
    intro n hn rest
    obtain ⟨n, rfl⟩ := Nat.exists_eq_succ_of_ne_zero (by simp at hn; omega : n ≠ 0)
    simp only [List.length_cons, List.length_append] at hn
    have hi := pairs_of (item := valueN env T n) (ps := items) hk (fun p hp rest => ih p hp n (by
      have := length_flatMap_mem (f := fun p : (List Char × List Answer) × (Value × List Answer) => p.1.2 ++ p.2.2) hp
      simp only [List.length_append] at this
      omega) rest) [] rest
    simp only [List.cons_append, List.append_assoc, valueN, select, tys, List.length_cons, List.length_nil, confirm]
    simp only [Nat.reduceAdd, Nat.reduceLT, if_true, Out.ok_bind, List.getElem?_cons_succ, List.getElem?_cons_zero,
      (input_iff (natOf_iff usizeMax)).mpr ⟨_, rfl, hn'⟩, hi]
    rfl
  | openMap items hk h ih =>
    intro n hn rest
    obtain ⟨n, rfl⟩ := Nat.exists_eq_succ_of_ne_zero (by simp at hn; omega : n ≠ 0)
    simp only [List.length_cons, List.length_append] at hn
    have hi := pairsUntil_of (item := valueN env T n) (ps := items) hk (fun p hp rest => ih p hp n (by
      have := length_flatMap_mem
        (f := fun p : (List Char × List Answer) × (Value × List Answer) => .confirm Bool.false :: (p.1.2 ++ p.2.2)) hp
      simp only [List.length_append, List.length_cons] at this
      omega) rest) [] rest
      (n := (items.flatMap (fun p : (List Char × List Answer) × (Value × List Answer) =>
        Answer.confirm Bool.false :: (p.1.2 ++ p.2.2)) ++ [Answer.confirm Bool.true] ++ rest).length + 1) (by
        have := length_le_flatMap
          (f := fun p : (List Char × List Answer) × (Value × List Answer) => .confirm Bool.false :: (p.1.2 ++ p.2.2))
          (l := items) (by simp)
        simp only [List.length_append] at this ⊢
        omega)
    simp only [List.cons_append, valueN, select, tys, List.length_cons, List.length_nil, confirm]
    simp only [Nat.reduceAdd, Nat.reduceLT, if_true, Out.ok_bind, List.getElem?_cons_succ, List.getElem?_cons_zero,
      Bool.false_eq_true, if_false, hi]
    rfl

end Mouse

end Souris
