import Verif.Props.StdText

/-! # Exactly which values can be typed into `mouse` (C66) -/

namespace Souris

open StdText Mouse Value

/-- A double that can be typed: a number, an infinity or one of two not-a-numbers. -/
def TypedDouble (x : UInt64) : Prop := ¬ IsNan64 x ∨ x = 0x7FF8000000000000 ∨ x = 0xFFF8000000000000

/-- The values that can be typed: no singles, no empty strings and keys; of the not-a-numbers two; of binary data
the contents of files. -/
inductive Enterable (env : Env) (T : Term) : Value → Prop
  | character (c : Char) : Enterable env T (.character c)
  | string {s : List Char} (h : s ≠ []) : Enterable env T (.string s)
  | binary {b : List UInt8} {path : List Char} (hp : path ≠ []) (h : T.files path = .file b) : Enterable env T (.binary b)
  | boolean (b : Bool) : Enterable env T (.boolean b)
  | integer {i : Integer} {s : List Char} (h : Integer.fromStr s = .ok i) : Enterable env T (.integer i)
  | cartesian {re im : Integer} {s t : List Char} (hr : Integer.fromStr s = .ok re) (hi : Integer.fromStr t = .ok im) :
      Enterable env T (.imaginary (.cartesian re im))
  | polar {m a : UInt64} (hm : TypedDouble m) (ha : TypedDouble a) : Enterable env T (.imaginary (.polar m a))
  | now : Enterable env T (.timestamp T.now)
  | timestamp {t : Timestamp} (hd : IsDate t.year t.month t.day) (ht : IsTime t.hour t.minute t.sec t.nano) :
      Enterable env T (.timestamp t)
  | json {j : SJValue} {s : List Char} (hs : s ≠ []) (h : env.jsonParse s = some j) : Enterable env T (.json j)
  | null : Enterable env T .null
  | double {x : UInt64} (h : TypedDouble x) : Enterable env T (.double x)
  | array {vs : List Value} (h : ∀ v ∈ vs, Enterable env T v) : Enterable env T (.array vs)
  | map {m : List (List Char × Value)} (hn : (m.map Prod.fst).Nodup) (hk : ∀ p ∈ m, p.1 ≠ []) (h : ∀ p ∈ m, Enterable env T p.2) :
      Enterable env T (.map m)
  | timezone {z : List Char} (h : z ∈ env.tzNames) : Enterable env T (.timezone z)
  | ipv4 (a b c d : UInt8) : Enterable env T (.ipv4 a b c d)
  | ipv6 (a b c d e f g h : UInt16) : Enterable env T (.ipv6 a b c d e f g h)

namespace StdText

theorem parseUnsigned_le {t : List Char} {b : Nat} (h : parseUnsigned f64Format t = some b) : b ≤ f64Format.inf ∨ b = f64Format.inf + 2 ^ 51 := by
  unfold parseUnsigned at h
  split at h
  · rw [← Option.some.inj h]
    exact .inl (roundTo_le_inf _ _)
  · rcases parseWord_iff.mp h with ⟨_, rfl⟩ | ⟨_, rfl⟩
    · exact .inl (Nat.le_refl _)
    · exact .inr rfl

theorem f64Parse_typed {t : List Char} {x : UInt64} (h : f64Parse t = some x) : TypedDouble x := by
  unfold f64Parse at h
  rw [Option.map_eq_some_iff] at h
  obtain ⟨b, hb, rfl⟩ := h
  have hinf : f64Format.inf = 2047 * 2 ^ 52 := rfl
  have key : ∀ b, b ≤ f64Format.inf ∨ b = f64Format.inf + 2 ^ 51 →
      TypedDouble (UInt64.ofNat b) ∧ TypedDouble (UInt64.ofNat (2 ^ 63 + b)) := by
    intro b hb
    rw [hinf] at hb
    rcases hb with hb | rfl
    · constructor <;> left <;> unfold IsNan64 <;> rw [UInt64.toNat_ofNat'] <;> omega
    · exact ⟨.inr (.inl rfl), .inr (.inr rfl)⟩
  unfold parseFloat at hb
  split at hb
  · rw [Option.map_eq_some_iff] at hb
    obtain ⟨b, hb, rfl⟩ := hb
    exact (key b (parseUnsigned_le hb)).2
  · exact (key b (parseUnsigned_le hb)).1
  · exact (key b (parseUnsigned_le hb)).1

theorem typed_f64Parse {x : UInt64} (h : TypedDouble x) : ∃ t, t ≠ [] ∧ f64Parse t = some x := by
  rcases h with h | rfl | rfl
  · have hr := ((f64_reread x).resolve_left fun h' => h h'.1).2
    refine ⟨f64Text x, ?_, hr⟩
    intro e
    rw [e] at hr
    cases hr
  · exact ⟨['N', 'a', 'N'], by simp, by decide +kernel⟩
  · exact ⟨['-', 'N', 'a', 'N'], by simp, by decide +kernel⟩

end StdText

theorem typed_text {α : Type} {R : List Char → α → Prop} {a : α} {as : List Answer} (h : Typed R a as) : ∃ s, s ≠ [] ∧ R s a := by
  obtain ⟨_, s, _, _, h1, h2⟩ := h
  exact ⟨s, h1, h2⟩

theorem lastOfEach_nodup (ps : List (List Char × Value)) : ((lastOfEach ps).map Prod.fst).Nodup := by
  suffices ∀ m : List (List Char × Value), (m.map Prod.fst).Nodup → ((inserted m ps).map Prod.fst).Nodup by
    exact this [] (by simp)
  induction ps with
  | nil => exact fun m h => h
  | cons p ps ih =>
    intro m h
    refine ih (AMap.insert p.1 p.2 m) ?_
    clear ih
    have keys : ∀ m : List (List Char × Value), (AMap.insert p.1 p.2 m).map Prod.fst =
        if p.1 ∈ m.map Prod.fst then m.map Prod.fst else m.map Prod.fst ++ [p.1] := by
      intro m
      induction m with
      | nil => simp [AMap.insert]
      | cons q m ih =>
        show (if q.1 = p.1 then _ else _ : List (List Char × Value)).map Prod.fst = _
        by_cases hq : q.1 = p.1
        · rw [if_pos hq]
          simp [hq]
        · rw [if_neg hq, List.map_cons, ih]
          have : p.1 ≠ q.1 := fun e => hq e.symm
          by_cases hm : p.1 ∈ m.map Prod.fst
          · rw [if_pos hm, if_pos (by simp at hm ⊢; exact .inr hm)]
            rfl
          · rw [if_neg hm, if_neg (by simp at hm ⊢; exact ⟨this, hm⟩)]
            rfl
    rw [keys]
    split
    · exact h
    · rename_i hm
      rw [List.nodup_append]
      refine ⟨h, by simp, fun a ha b hb e => ?_⟩
      rw [List.mem_singleton.mp hb] at e
      exact hm (e ▸ ha)

/-- C66, exactly: the values that can be typed are those of `Enterable`. Nothing is assumed about std and
chrono. -/
theorem C66_exact_partial {env : Env} (hc : env.Chrono) (T : Term) (v : Value) :
    (∃ answers rest, value env T.withStd answers = .ok (v, rest)) ↔ Enterable env T v := by
  constructor
  · rintro ⟨answers, rest, h⟩
    obtain ⟨used, he, hs⟩ := (C65_entry_partial _ _ _ _ _).mp h
    clear h he
    induction hs with
    | character h => exact .character _
    | string h =>
      obtain ⟨s, h1, h2⟩ := typed_text h
      exact .string (fun e => h1 (by rw [show s = _ from h2, e]))
    | binary h =>
      obtain ⟨_, path, _, h1, h2, _⟩ := h
      exact .binary h1 h2
    | false => exact .boolean _
    | true => exact .boolean _
    | integer h => obtain ⟨s, _, h⟩ := typed_text h; exact .integer h
    | imaginary h =>
      cases h with
      | polar hm ha =>
        obtain ⟨s, _, hm⟩ := typed_text hm
        obtain ⟨t, _, ha⟩ := typed_text ha
        exact .polar (f64Parse_typed hm) (f64Parse_typed ha)
      | cartesian hr hi =>
        obtain ⟨s, _, hr⟩ := typed_text hr
        obtain ⟨t, _, hi⟩ := typed_text hi
        exact .cartesian hr hi
    | timestamp h =>
      cases h with
      | now => exact .now
      | format h =>
        obtain ⟨s, _, h⟩ := typed_text h
        have h : env.tsParse s = some _ := h
        rw [hc.parse] at h
        have := (C86_reads.mp h)
        obtain ⟨a, w, b, _, hd, _, ht⟩ := this
        exact .timestamp hd.exists_ ht.exists_
      | parts hwd hd hdv hwt ht htv => exact .timestamp hdv htv
    | json h => obtain ⟨s, hs, h⟩ := typed_text h; exact .json hs h
    | null => exact .null
    | double h => obtain ⟨s, _, h⟩ := typed_text h; exact .double (f64Parse_typed h)
    | single h => obtain ⟨s, _, h⟩ := typed_text h; exact .double (f64Parse_typed h)
    | array items hn h ih =>
      refine .array fun v hv => ?_
      obtain ⟨p, hp, rfl⟩ := List.mem_map.mp hv
      exact ih p hp
    | openArray items last h hl ih ihl =>
      refine .array fun v hv => ?_
      rcases List.mem_append.mp hv with hv | hv
      · obtain ⟨p, hp, rfl⟩ := List.mem_map.mp hv
        exact ih p hp
      · rw [List.mem_singleton.mp hv]; exact ihl
    | map items hn hk h ih | openMap items hk h ih =>
      refine .map (lastOfEach_nodup _) (fun p hp => ?_) (fun p hp => ?_) <;> obtain ⟨q, hq, rfl⟩ := List.mem_map.mp (lastOfEach_mem hp)
      · obtain ⟨s, h1, h2⟩ := typed_text (hk q hq)
        exact fun e => h1 (by rw [show s = _ from h2, e])
      · exact ih q hq
    | timezone h => exact .timezone (List.mem_iff_getElem?.mpr ⟨_, h⟩)
    | ipv4 h => exact .ipv4 ..
    | ipv6 h => exact .ipv6 ..
  · intro h
    suffices ∃ used, Spells env T.withStd v used by
      obtain ⟨used, h⟩ := this
      exact ⟨used, [], (C65_entry_partial _ _ _ _ _).mpr ⟨used, by simp, h⟩⟩
    induction h with
    | character c => exact ⟨_, .character (typed_line (s := [c]) (by simp) rfl)⟩
    | string h => exact ⟨_, .string (typed_line h rfl)⟩
    | @binary b path hp h => exact ⟨_, .binary ⟨[], path, rfl, hp, h, by simp⟩⟩
    | boolean b => cases b; exacts [⟨_, .false⟩, ⟨_, .true⟩]
    | integer h => exact ⟨_, .integer (typed_line (fromStr_ne_nil h) h)⟩
    | cartesian hr hi =>
      exact ⟨_, .imaginary (.cartesian (typed_line (fromStr_ne_nil hr) hr) (typed_line (fromStr_ne_nil hi) hi))⟩
    | polar hm ha =>
      obtain ⟨s, hs, hm⟩ := typed_f64Parse hm
      obtain ⟨t, ht, ha⟩ := typed_f64Parse ha
      exact ⟨_, .imaginary (.polar (typed_line hs hm) (typed_line ht ha))⟩
    | now => exact ⟨_, .timestamp .now⟩
    | @timestamp t hd ht =>
      have ht' := ht
      unfold IsTime at ht'
      have hv : t.Valid := ⟨hd, ht'.1, ht'.2.1, ht'.2.2.1, by omega⟩
      have hl : t.LeapAt59 := fun h => by omega
      have hp := C86_iso_partial hv hl
      refine ⟨_, .timestamp (.format (typed_line ?_ (show env.tsParse _ = some t by rw [hc.parse]; exact hp)))⟩
      intro e
      rw [e] at hp
      cases hp
    | json hs h => exact ⟨_, .json (typed_line hs h)⟩
    | null => exact ⟨_, .null⟩
    | double h =>
      obtain ⟨s, hs, h⟩ := typed_f64Parse h
      exact ⟨_, .double (typed_line hs h)⟩
    | @array vs h ih =>
      have : ∃ ps : List (Value × List Answer), ps.map Prod.fst = vs ∧ ∀ p ∈ ps, Spells env T.withStd p.1 p.2 := by
        clear h
        induction vs with
        | nil => exact ⟨[], rfl, by simp⟩
        | cons v vs ihv =>
          obtain ⟨ps, rfl, hp⟩ := ihv fun w hw => ih w (by simp [hw])
          obtain ⟨used, hu⟩ := ih v (by simp)
          refine ⟨(v, used) :: ps, rfl, fun p hp' => ?_⟩
          rcases List.mem_cons.mp hp' with rfl | hp'
          · exact hu
          · exact hp p hp'
      obtain ⟨ps, rfl, hp⟩ := this
      rcases List.eq_nil_or_concat' ps with rfl | ⟨ps, last, rfl⟩
      · exact ⟨_, .array [] (typed_nat (n := 0) (by simp)) (by simp)⟩
      · have := Spells.openArray (env := env) (T := T.withStd) ps last (fun p h => hp p (by simp [h])) (hp last (by simp))
        rw [show (ps ++ [last]).map Prod.fst = ps.map Prod.fst ++ [last.1] by simp]
        exact ⟨_, this⟩
    | @map m hn hk h ih =>
      have : ∃ ps : List ((List Char × List Answer) × (Value × List Answer)),
          (ps.map fun p => (p.1.1, p.2.1)) = m ∧ (∀ p ∈ ps, Typed Reads.text p.1.1 p.1.2) ∧
            ∀ p ∈ ps, Spells env T.withStd p.2.1 p.2.2 := by
        clear hn h
        induction m with
        | nil => exact ⟨[], rfl, by simp, by simp⟩
        | cons q m ihm =>
          obtain ⟨ps, rfl, hp1, hp2⟩ := ihm (fun p hp => hk p (by simp [hp])) (fun p hp => ih p (by simp [hp]))
          obtain ⟨used, hu⟩ := ih q (by simp)
          refine ⟨((q.1, [.line q.1]), (q.2, used)) :: ps, rfl, fun p hp' => ?_, fun p hp' => ?_⟩ <;>
            rcases List.mem_cons.mp hp' with rfl | hp'
          · exact typed_line (hk q (by simp)) rfl
          · exact hp1 p hp'
          · exact hu
          · exact hp2 p hp'
      obtain ⟨ps, hm, hp1, hp2⟩ := this
      have := Spells.openMap (env := env) (T := T.withStd) ps hp1 hp2
      rw [hm] at this
      have e : lastOfEach m = m := inserted_distinct (m := []) (by simpa using hn)
      rw [e] at this
      exact ⟨_, this⟩
    | timezone h =>
      obtain ⟨i, hi⟩ := List.mem_iff_getElem?.mp h
      exact ⟨_, .timezone hi⟩
    | ipv4 a b c d =>
      have h : ip4Parse (ip4Text a b c d) = some (a, b, c, d) := ip4Parse_iff.mpr (ip4Text_dotted a b c d)
      refine ⟨_, .ipv4 (typed_line ?_ h)⟩
      intro e
      rw [e] at h
      cases h
    | ipv6 a b c d e f g i =>
      have h := C87_reread_ipv6 a b c d e f g i
      refine ⟨_, .ipv6 (typed_line ?_ h)⟩
      intro e
      rw [e] at h
      cases h

/-- A value that can be typed although it holds an infinity, an address and a leap second. -/
example : ∃ answers rest, value chronoEnv sampleTerm.withStd answers =
    .ok (.map [(['k'], .array [.double 0x7FF0000000000000, .ipv6 0 0 0 0 0 0 0 1, .timestamp leapSecond])], rest) := by
  refine (C66_exact_partial chronoEnv_chrono _ _).mpr (.map (by simp) (by simp) fun p hp => ?_)
  rw [List.mem_singleton.mp hp]
  refine .array fun v hv => ?_
  simp only [List.mem_cons, List.not_mem_nil, or_false] at hv
  rcases hv with rfl | rfl | rfl
  · exact .double (.inl (by unfold IsNan64; decide))
  · exact .ipv6 ..
  · exact .timestamp (by decide) (by decide)

/-- And one that cannot. -/
example (answers rest : List Answer) : value chronoEnv sampleTerm.withStd answers ≠ .ok (.double 0x7FF0000000000001, rest) := by
  intro h
  have := (C66_exact_partial chronoEnv_chrono sampleTerm _).mp ⟨_, _, h⟩
  cases this with
  | double h =>
    rcases h with h | h | h
    · exact h (by unfold IsNan64; decide)
    · exact absurd h (by decide)
    · exact absurd h (by decide)

end Souris
