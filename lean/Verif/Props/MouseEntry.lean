import Verif.Lemmas.MouseEntry
import Verif.Lemmas.Daemon
import Verif.Spec.ValueEq
import Verif.Props.ValueLoop

/-! # Typing a value into `mouse`: C65 (what is typed is what is entered), C66 (which values can be typed) -/

namespace Souris

open Mouse Value

/-! ## C65 -/

/-- C65, partial: a value is entered exactly by the answers that spell it, and the prompts take those answers
and no more. Missing: what the menu calls `SingleFloat`, see `C65_refuted_single`; `Spells` lists it as the
double that it is. -/
theorem C65_entry_partial (env : Env) (T : Term) (s : List Answer) (v : Value) (rest : List Answer) :
    value env T s = .ok (v, rest) ↔ ∃ used, s = used ++ rest ∧ Spells env T v used := by
  constructor
  · exact valueN_ok
  · rintro ⟨used, rfl, h⟩
    exact valueN_of h _ (by simp only [List.length_append]; omega) rest

/-- C65, partial: the value has the type that was picked from the menu. Missing: `SingleFloat`. -/
theorem C65_type_partial (env : Env) (T : Term) (i : Nat) (s : List Answer) (v : Value) (rest : List Answer)
    (h : value env T (.pick i :: s) = .ok (v, rest)) (hi : i ≠ 15) : tys[i]? = some v.asTy := by
  obtain ⟨used, e, h⟩ := (C65_entry_partial env T _ v rest).mp h
  cases h <;> simp only [List.cons_append, List.cons.injEq, Answer.pick.injEq] at e <;> obtain ⟨rfl, _⟩ := e <;>
    first | rfl | exact absurd rfl hi

/-- C65 is violated: whoever picks `SingleFloat` gets a double. -/
theorem C65_refuted_single (env : Env) (T : Term) (text : List Char) (bits : UInt64) (ht : text ≠ [])
    (h : T.f64 text = some bits) (rest : List Answer) :
    tys[15]? = some .singleFloat ∧ value env T (.pick 15 :: .line text :: rest) = .ok (.double bits, rest) :=
  ⟨rfl, (C65_entry_partial _ _ _ _ _).mpr ⟨[.pick 15, .line text], rfl, .single ⟨[], text, rfl, by simp, ht, h⟩⟩⟩

theorem mem_insert {k : List Char} {v : Value} {m : List (List Char × Value)} {p : List Char × Value}
    (h : p ∈ AMap.insert k v m) : p = (k, v) ∨ p ∈ m := by
  induction m with
  | nil => exact .inl (by simpa [AMap.insert] using h)
  | cons q m ih =>
    obtain ⟨k', v'⟩ := q
    simp only [AMap.insert] at h
    split at h
    · rename_i e
      rcases List.mem_cons.mp h with h | h
      · exact .inl (by rw [h, e])
      · exact .inr (by simp [h])
    · rcases List.mem_cons.mp h with h | h
      · exact .inr (by simp [h])
      · rcases ih h with h | h
        · exact .inl h
        · exact .inr (by simp [h])

theorem inserted_mem {ps m : List (List Char × Value)} {p : List Char × Value} (h : p ∈ inserted m ps) :
    p ∈ ps ∨ p ∈ m := by
  induction ps generalizing m with
  | nil => exact .inr h
  | cons q ps ih =>
    rcases ih h with h | h
    · exact .inl (by simp [h])
    · rcases mem_insert h with h | h
      · exact .inl (by simp [h])
      · exact .inr h

theorem lastOfEach_mem {ps : List (List Char × Value)} {p : List Char × Value} (h : p ∈ lastOfEach ps) : p ∈ ps := by
  rcases inserted_mem (m := []) h with h | h
  · exact h
  · cases h

theorem inserted_nodup {ps m : List (List Char × Value)} (h : (m.map Prod.fst).Nodup) :
    ((inserted m ps).map Prod.fst).Nodup := by
  induction ps generalizing m with
  | nil => exact h
  | cons q ps ih => exact ih (AMap.nodup_insert h)

theorem inserted_get {ps m : List (List Char × Value)} (k : List Char) :
    AMap.get k (inserted m ps) = ((ps.reverse.lookup k).or (AMap.get k m)) := by
  induction ps generalizing m with
  | nil => rfl
  | cons q ps ih =>
    obtain ⟨qk, qv⟩ := q
    show AMap.get k (inserted (AMap.insert qk qv m) ps) = _
    rw [ih, AMap.get_insert]
    simp only [List.reverse_cons, List.lookup_append, List.lookup_cons, List.lookup_nil]
    cases hl : ps.reverse.lookup k with
    | some v => rfl
    | none =>
      simp only [Option.none_or]
      by_cases hk : k = qk
      · simp [hk]
      · have : (k == qk) = false := by simpa using hk
        simp [hk, this]

/-- C65: in a map that was entered each key occurs once, with the value that was typed last for it. -/
theorem C65_map (ps : List (List Char × Value)) :
    ((lastOfEach ps).map Prod.fst).Nodup ∧
    ∀ k v, (k, v) ∈ lastOfEach ps ↔ ∃ before after, ps = before ++ (k, v) :: after ∧ k ∉ after.map Prod.fst := by
  have hn : ((lastOfEach ps).map Prod.fst).Nodup := inserted_nodup (m := []) (by simp)
  refine ⟨hn, fun k v => ?_⟩
  rw [← AMap.get_iff hn]
  show AMap.get k (inserted [] ps) = some v ↔ _
  rw [inserted_get]
  rw [show AMap.get k ([] : List (List Char × Value)) = none from rfl, Option.or_none]
  constructor
  · intro h
    induction ps using List.reverseRecOn with
    | nil => simp at h
    | append_singleton ps q ih =>
      have hn' : ((lastOfEach ps).map Prod.fst).Nodup := inserted_nodup (m := []) (by simp)
      rw [List.reverse_append, List.reverse_singleton, List.singleton_append, List.lookup_cons] at h
      by_cases hk : k = q.1
      · simp only [hk, beq_self_eq_true, Option.some.injEq] at h
        exact ⟨ps, [], by rw [hk, ← h], by simp⟩
      · have hb : (k == q.1) = false := by simpa using hk
        rw [hb] at h
        obtain ⟨before, after, e, hx⟩ := ih hn' h
        refine ⟨before, after ++ [q], by rw [e]; simp, ?_⟩
        simp only [List.map_append, List.map_cons, List.map_nil, List.mem_append, List.mem_singleton, not_or]
        exact ⟨hx, hk⟩
  · rintro ⟨before, after, rfl, hx⟩
    rw [List.reverse_append, List.reverse_cons, List.lookup_append, List.lookup_append]
    have h1 : after.reverse.lookup k = none := by
      rw [List.lookup_eq_none_iff]
      intro p hp
      have : k ≠ p.1 := by
        rintro rfl
        exact hx (List.mem_map_of_mem (List.mem_reverse.mp hp))
      simpa using this
    rw [h1]
    simp

/-- C65: what is entered is a value like those that the API builds. -/
theorem C65_live (env : Env) (T : Term) (s : List Answer) (v : Value) (rest : List Answer)
    (h : value env T s = .ok (v, rest)) :
    (∀ m, Sub (.map m) v → (m.map Prod.fst).Nodup) ∧
    (∀ i, Sub (.integer i) v → ∃ text, Integer.fromStr text = .ok i) := by
  obtain ⟨used, -, hs⟩ := (C65_entry_partial env T s v rest).mp h
  clear h
  rename Spells env T v used => h
  have fromText {i : Integer} {as : List Answer} (h : Typed Reads.integer i as) :
      ∃ text, Integer.fromStr text = .ok i := by
    obtain ⟨_, t, _, _, _, h⟩ := h; exact ⟨t, h⟩
  induction h with
  | array items hn h ih =>
    constructor
    · intro m hs
      cases hs with
      | array hv hs =>
        obtain ⟨p, hp, rfl⟩ := List.mem_map.mp hv
        exact (ih p hp).1 m hs
    · intro i hs
      cases hs with
      | array hv hs =>
        obtain ⟨p, hp, rfl⟩ := List.mem_map.mp hv
        exact (ih p hp).2 i hs
  | openArray items last h hl ih ihl =>
    constructor
    · intro m hs
      cases hs with
      | array hv hs =>
        rcases List.mem_append.mp hv with hv | hv
        · obtain ⟨p, hp, rfl⟩ := List.mem_map.mp hv
          exact (ih p hp).1 m hs
        · rw [List.mem_singleton.mp hv] at hs; exact ihl.1 m hs
    · intro i hs
      cases hs with
      | array hv hs =>
        rcases List.mem_append.mp hv with hv | hv
        · obtain ⟨p, hp, rfl⟩ := List.mem_map.mp hv
          exact (ih p hp).2 i hs
        · rw [List.mem_singleton.mp hv] at hs; exact ihl.2 i hs
  | map items hn hk h ih =>
    constructor
    · intro m hs
      cases hs with
      | refl => exact (C65_map _).1
      | map hv hs =>
        obtain ⟨p, hp, e⟩ := List.mem_map.mp (lastOfEach_mem hv)
        cases e
        exact (ih p hp).1 m hs
    · intro i hs
      cases hs with
      | map hv hs =>
        obtain ⟨p, hp, e⟩ := List.mem_map.mp (lastOfEach_mem hv)
        cases e
        exact (ih p hp).2 i hs
  | openMap items hk h ih =>
    constructor
    · intro m hs
      cases hs with
      | refl => exact (C65_map _).1
      | map hv hs =>
        obtain ⟨p, hp, e⟩ := List.mem_map.mp (lastOfEach_mem hv)
        cases e
        exact (ih p hp).1 m hs
    · intro i hs
      cases hs with
      | map hv hs =>
        obtain ⟨p, hp, e⟩ := List.mem_map.mp (lastOfEach_mem hv)
        cases e
        exact (ih p hp).2 i hs
  | integer h =>
    refine ⟨fun m hs => (by cases hs), fun i hs => ?_⟩
    cases hs
    exact fromText h
  | _ => exact ⟨fun m hs => (by cases hs), fun i hs => (by cases hs)⟩

/-! ## C66 -/

/-- C66 is violated: no answers whatsoever enter a value with a single-precision float, an empty string or an
empty key in it. -/
theorem C66_refuted (env : Env) (T : Term) (s : List Answer) (v : Value) (rest : List Answer)
    (h : value env T s = .ok (v, rest)) :
    (∀ bits, ¬ Sub (.single bits) v) ∧ ¬ Sub (.string []) v ∧ ∀ m w, Sub (.map m) v → ([], w) ∉ m := by
  obtain ⟨used, -, hs⟩ := (C65_entry_partial env T s v rest).mp h
  clear h
  rename Spells env T v used => h
  have key {k : List Char} {as : List Answer} (h : Typed Reads.text k as) : k ≠ [] := by
    obtain ⟨_, t, _, _, h1, rfl⟩ := h; exact h1
  induction h with
  | array items hn h ih =>
    refine ⟨fun b hs => ?_, fun hs => ?_, fun m w hs => ?_⟩ <;> cases hs with
      | array hv hs =>
        obtain ⟨p, hp, rfl⟩ := List.mem_map.mp hv
        first | exact (ih p hp).1 b hs | exact (ih p hp).2.1 hs | exact (ih p hp).2.2 m w hs
  | openArray items last h hl ih ihl =>
    refine ⟨fun b hs => ?_, fun hs => ?_, fun m w hs => ?_⟩ <;> cases hs with
      | array hv hs =>
        rcases List.mem_append.mp hv with hv | hv
        · obtain ⟨p, hp, rfl⟩ := List.mem_map.mp hv
          first | exact (ih p hp).1 b hs | exact (ih p hp).2.1 hs | exact (ih p hp).2.2 m w hs
        · rw [List.mem_singleton.mp hv] at hs
          first | exact ihl.1 b hs | exact ihl.2.1 hs | exact ihl.2.2 m w hs
  | map items hn hk h ih | openMap items hk h ih =>
    refine ⟨fun b hs => ?_, fun hs => ?_, fun m w hs hm => ?_⟩
    · cases hs with
      | map hv hs =>
        obtain ⟨p, hp, e⟩ := List.mem_map.mp (lastOfEach_mem hv)
        cases e
        exact (ih p hp).1 b hs
    · cases hs with
      | map hv hs =>
        obtain ⟨p, hp, e⟩ := List.mem_map.mp (lastOfEach_mem hv)
        cases e
        exact (ih p hp).2.1 hs
    · cases hs with
      | refl =>
        obtain ⟨p, hp, e⟩ := List.mem_map.mp (lastOfEach_mem hm)
        simp only [Prod.mk.injEq] at e
        exact key (hk p hp) e.1
      | map hv hs =>
        obtain ⟨p, hp, e⟩ := List.mem_map.mp (lastOfEach_mem hv)
        cases e
        exact (ih p hp).2.2 m w hs hm
  | string h =>
    refine ⟨fun b hs => (by cases hs), fun hs => ?_, fun m w hs => (by cases hs)⟩
    cases hs
    exact key h rfl
  | _ => exact ⟨fun b hs => (by cases hs), fun hs => (by cases hs), fun m w hs => (by cases hs)⟩

/-- What can be typed: everything without single floats, empty strings and empty keys, as far as the types that
are typed as text have a text for it. -/
inductive Typable (env : Env) (T : Term) : Value → Prop
  | character (c : Char) : Typable env T (.character c)
  | string {s : List Char} (h : s ≠ []) : Typable env T (.string s)
  | binary {b : List UInt8} {path : List Char} (hp : path ≠ []) (h : T.files path = .file b) :
      Typable env T (.binary b)
  | boolean (b : Bool) : Typable env T (.boolean b)
  | integer {i : Integer} {s : List Char} (h : Integer.fromStr s = .ok i) : Typable env T (.integer i)
  | cartesian {re im : Integer} {s t : List Char} (hr : Integer.fromStr s = .ok re) (hi : Integer.fromStr t = .ok im) :
      Typable env T (.imaginary (.cartesian re im))
  | polar {m a : UInt64} {s t : List Char} (hs : s ≠ []) (ht : t ≠ []) (hm : T.f64 s = some m) (ha : T.f64 t = some a) :
      Typable env T (.imaginary (.polar m a))
  | timestamp {t : Timestamp} (hd : IsDate t.year t.month t.day)
      (ht : IsTime t.hour t.minute t.sec t.nano) (hms : 1000000 ∣ t.nano) :
      Typable env T (.timestamp t)
  | json {j : SJValue} {s : List Char} (hs : s ≠ []) (h : env.jsonParse s = some j) : Typable env T (.json j)
  | null : Typable env T .null
  | double {f : UInt64} {s : List Char} (hs : s ≠ []) (h : T.f64 s = some f) : Typable env T (.double f)
  | array {vs : List Value} (hl : vs.length < 2 ^ 64) (h : ∀ v ∈ vs, Typable env T v) : Typable env T (.array vs)
  | map {m : List (List Char × Value)} (hl : m.length < 2 ^ 64) (hn : (m.map Prod.fst).Nodup)
      (hk : ∀ p ∈ m, p.1 ≠ []) (h : ∀ p ∈ m, Typable env T p.2) : Typable env T (.map m)
  | timezone {z : List Char} (h : z ∈ env.tzNames) : Typable env T (.timezone z)
  | ipv4 {a b c d : UInt8} {s : List Char} (hs : s ≠ []) (h : T.ip4 s = some (a, b, c, d)) : Typable env T (.ipv4 a b c d)
  | ipv6 {a b c d e f g h : UInt16} {s : List Char} (hs : s ≠ []) (hp : T.ip6 s = some (a, b, c, d, e, f, g, h)) :
      Typable env T (.ipv6 a b c d e f g h)

theorem typed_line {α : Type} {R : List Char → α → Prop} {a : α} {s : List Char} (hs : s ≠ []) (h : R s a) :
    Typed R a [.line s] := ⟨[], s, rfl, by simp, hs, h⟩

theorem typed_nat {n max : Nat} (h : n ≤ max) : Typed (Reads.nat max) n [.line (natText n)] := by
  obtain ⟨h1, h2, h3⟩ := natText_spec n
  refine typed_line h1 ⟨?_, ?_, h⟩
  · have := Numeral.plain h1 h2
    rwa [h3] at this
  · intro e
    cases hn : natText n with
    | nil => exact h1 hn
    | cons c cs =>
      rw [hn] at e h2
      simp only [List.head?_cons, Option.some.injEq] at e
      exact minus_not_digit (e ▸ h2 c (by simp))

theorem intText_ne_nil (n : Int) : intText n ≠ [] := by
  unfold intText
  split
  · simp
  · exact (natText_spec _).1

theorem fromStr_ne_nil {s : List Char} {i : Integer} (h : Integer.fromStr s = .ok i) : s ≠ [] := by
  rintro rfl; cases h

theorem inserted_distinct {ps m : List (List Char × Value)} (h : ((m ++ ps).map Prod.fst).Nodup) :
    inserted m ps = m ++ ps := by
  induction ps generalizing m with
  | nil => simp [inserted]
  | cons q ps ih =>
    have hq : q.1 ∉ m.map Prod.fst := by
      intro hm
      rw [List.map_append, List.nodup_append] at h
      exact h.2.2 _ hm _ (by simp) rfl
    have hi : AMap.insert q.1 q.2 m = m ++ [q] := by
      clear h ih
      induction m with
      | nil => rfl
      | cons r m ihm =>
        have h1 : r.1 ≠ q.1 := fun e => hq (by simp [e])
        show (if r.1 = q.1 then _ else _) = _
        rw [if_neg h1, ihm fun h => hq (by simp [h])]
        rfl
    show inserted (AMap.insert q.1 q.2 m) ps = _
    rw [hi, ih (by simpa using h)]
    simp

/-- C66, partial: every value without single floats, empty strings and empty keys can be typed in, given texts
for its floats, JSON and addresses, files for its binary data, and whole milliseconds. Missing: the others,
which cannot (`C66_refuted`). -/
theorem C66_typable_partial {env : Env} {T : Term} {v : Value} (h : Typable env T v) :
    ∃ answers, value env T answers = .ok (v, []) := by
  suffices ∃ used, Spells env T v used by
    obtain ⟨used, h⟩ := this
    exact ⟨used, (C65_entry_partial _ _ _ _ _).mpr ⟨used, by simp, h⟩⟩
  induction h with
  | character c => exact ⟨_, .character (typed_line (s := [c]) (by simp) rfl)⟩
  | string h => exact ⟨_, .string (typed_line h rfl)⟩
  | @binary b path hp h => exact ⟨_, .binary ⟨[], path, rfl, hp, h, by simp⟩⟩
  | boolean b => cases b; exacts [⟨_, .false⟩, ⟨_, .true⟩]
  | integer h => exact ⟨_, .integer (typed_line (fromStr_ne_nil h) h)⟩
  | cartesian hr hi =>
    exact ⟨_, .imaginary (.cartesian (typed_line (fromStr_ne_nil hr) hr) (typed_line (fromStr_ne_nil hi) hi))⟩
  | polar hs ht hm ha => exact ⟨_, .imaginary (.polar (typed_line hs hm) (typed_line ht ha))⟩
  | @timestamp t hd ht hms =>
    obtain ⟨y, mo, d, h, mi, s, n⟩ := t
    obtain ⟨ms, hn⟩ := hms
    simp only at hd ht hn
    have hn' : n = ms * 1000000 := by rw [hn, Nat.mul_comm]
    subst hn'
    have hd' := hd
    have ht' := ht
    simp only [IsDate, IsTime] at hd' ht'
    have hdm : d ≤ 31 := hd'.2.2.2.trans (monthDays_le y mo)
    have hy : Typed Reads.i32 y [.line (intText y)] :=
      typed_line (intText_ne_nil y) ⟨intText_numeral y, by omega, by omega⟩
    exact ⟨_, .timestamp (.parts (wrongDates := []) (wrongTimes := []) (by simp)
      ⟨_, _, _, rfl, hy, typed_nat (by omega), typed_nat (by omega)⟩ hd (by simp)
      ⟨_, _, _, _, rfl, typed_nat (by omega), typed_nat (by omega), typed_nat (by omega), typed_nat (by omega)⟩ ht)⟩
  | json hs h => exact ⟨_, .json (typed_line hs h)⟩
  | null => exact ⟨_, .null⟩
  | double hs h => exact ⟨_, .double (typed_line hs h)⟩
  | @array vs hl h ih =>
    have : ∃ ps : List (Value × List Answer), ps.map Prod.fst = vs ∧ ∀ p ∈ ps, Spells env T p.1 p.2 := by
      clear hl h
      induction vs with
      | nil => exact ⟨[], rfl, by simp⟩
      | cons v vs ihv =>
        obtain ⟨ps, rfl, hp⟩ := ihv fun w hw => ih w (by simp [hw])
        obtain ⟨used, hu⟩ := ih v (by simp)
        refine ⟨(v, used) :: ps, rfl, fun p hp' => ?_⟩
        rcases List.mem_cons.mp hp' with rfl | hp'
        · exact hu
        · exact hp p hp'
    obtain ⟨ps, rfl, hp⟩ := this
    exact ⟨_, .array ps (typed_nat (by simp only [List.length_map] at hl; omega)) hp⟩
  | @map m hl hn hk h ih =>
    have : ∃ ps : List ((List Char × List Answer) × (Value × List Answer)),
        (ps.map fun p => (p.1.1, p.2.1)) = m ∧ (∀ p ∈ ps, Typed Reads.text p.1.1 p.1.2) ∧
          ∀ p ∈ ps, Spells env T p.2.1 p.2.2 := by
      clear hl hn h
      induction m with
      | nil => exact ⟨[], rfl, by simp, by simp⟩
      | cons q m ihm =>
        obtain ⟨ps, rfl, hp1, hp2⟩ := ihm (fun p hp => hk p (by simp [hp])) (fun p hp => ih p (by simp [hp]))
        obtain ⟨used, hu⟩ := ih q (by simp)
        refine ⟨((q.1, [.line q.1]), (q.2, used)) :: ps, rfl, fun p hp' => ?_, fun p hp' => ?_⟩ <;>
          rcases List.mem_cons.mp hp' with rfl | hp'
        · exact typed_line (hk q (by simp)) rfl
        · exact hp1 p hp'
        · exact hu
        · exact hp2 p hp'
    obtain ⟨ps, hm, hp1, hp2⟩ := this
    have hlen : ps.length < 2 ^ 64 := by rw [← hm, List.length_map] at hl; exact hl
    have := Spells.map (env := env) (T := T) ps (typed_nat (by omega)) hp1 hp2
    rw [hm] at this
    have e : lastOfEach m = m := inserted_distinct (m := []) (by simpa using hn)
    rw [e] at this
    exact ⟨_, this⟩
  | timezone h =>
    obtain ⟨i, hi⟩ := List.mem_iff_getElem?.mp h
    exact ⟨_, .timezone hi⟩
  | ipv4 hs h => exact ⟨_, .ipv4 (typed_line hs h)⟩
  | ipv6 hs h => exact ⟨_, .ipv6 (typed_line hs h)⟩

/-- C66, partial: there are answers for every number from -2^127 up to 2^128 - 1. -/
theorem C66_integer_partial (env : Env) (T : Term) (n : Int) (h1 : -(2 ^ 127) ≤ n) (h2 : n < 2 ^ 128) :
    ∃ answers i, value env T answers = .ok (.integer i, []) ∧ i.value = n := by
  obtain ⟨i, hi, hv⟩ := (C08_parse_exact (intText n)).2.1 n (intText_numeral n) h1 h2
  obtain ⟨as, h⟩ := C66_typable_partial (env := env) (T := T) (.integer hi)
  exact ⟨as, i, h, hv⟩

/-- Surroundings for examples: one file, and floats written `0` or `1`. -/
def sampleTerm : Term where
  files := fun p => if p = ['f'] then .file [1, 2] else .missing
  now := ⟨2024, 10, 30, 12, 0, 0, 0⟩
  f64 := fun s => if s = ['0'] then some 0 else if s = ['1'] then some 0x3FF0000000000000 else none
  ip4 := fun _ => none
  ip6 := fun _ => none
  unlink := .done

-- an array of two items, its length mistyped at first, and a map with a key typed twice
example : value sampleEnv sampleTerm
    [.pick 10, .confirm true, .line [], .line ['x'], .line ['2'], .pick 1, .line ['a'], .pick 11, .confirm false,
      .confirm false, .line ['k'], .pick 8, .confirm false, .line ['k'], .pick 3, .pick 1, .confirm true] =
    .ok (.array [.string ['a'], .map [(['k'], .boolean true)]], []) := rfl

example : value sampleEnv sampleTerm [.pick 2, .broken, .line ['g'], .line ['f'], .pick 8] =
    .ok (.binary [1, 2], [.pick 8]) := rfl

example : Typable sampleEnv sampleTerm
    (.map [(['k'], .array [.character 'c', .timestamp ⟨2024, 2, 29, 23, 59, 59, 250000000⟩])]) := by
  refine .map (by decide) (by simp) (by simp) fun p hp => ?_
  rw [List.mem_singleton.mp hp]
  refine .array (by decide) fun v hv => ?_
  rcases List.mem_cons.mp hv with rfl | hv
  · exact .character _
  · rw [List.mem_singleton.mp hv]; exact .timestamp (by decide) (by decide) ⟨250, rfl⟩

end Souris
