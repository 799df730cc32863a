import Verif.Lemmas.JsonNear
import Verif.Props.JsonUse

/-! # JSON with any floats comes back almost (C83, C26) -/

namespace Souris

open SerdeJson Value

mutual
/-- Other numbers in the same places. -/
def SJValue.mapNum (f : SJNumber → SJNumber) : SJValue → SJValue
  | .null => .null
  | .bool b => .bool b
  | .number n => .number (f n)
  | .string s => .string s
  | .array a => .array (mapNumList f a)
  | .object m => .object (mapNumEntries f m)

def SJValue.mapNumList (f : SJNumber → SJNumber) : List SJValue → List SJValue
  | [] => []
  | v :: vs => mapNum f v :: mapNumList f vs

def SJValue.mapNumEntries (f : SJNumber → SJNumber) : List (List Char × SJValue) → List (List Char × SJValue)
  | [] => []
  | (k, v) :: vs => (k, mapNum f v) :: mapNumEntries f vs
end

theorem SJValue.mapNumList_eq (f : SJNumber → SJNumber) (vs : List SJValue) :
    SJValue.mapNumList f vs = vs.map (SJValue.mapNum f) := by
  induction vs with
  | nil => rfl
  | cons v vs ih => rw [SJValue.mapNumList, ih]; rfl

theorem SJValue.mapNumEntries_eq (f : SJNumber → SJNumber) (es : List (List Char × SJValue)) :
    SJValue.mapNumEntries f es = es.map fun e => (e.1, e.2.mapNum f) := by
  induction es with
  | nil => rfl
  | cons e es ih => obtain ⟨k, v⟩ := e; rw [SJValue.mapNumEntries, ih]; rfl

theorem gathered_map (g : SJValue → SJValue) {es m : List (List Char × SJValue)} (h : Gathered es m) :
    Gathered (es.map fun e => (e.1, g e.2)) (m.map fun e => (e.1, g e.2)) := by
  refine ⟨?_, fun k v => ⟨fun hm => ?_, ?_⟩⟩
  · rw [List.pairwise_map]
    exact h.1
  · obtain ⟨⟨k', w⟩, hw, e⟩ := List.mem_map.mp hm
    simp only [Prod.mk.injEq] at e
    obtain ⟨rfl, rfl⟩ := e
    obtain ⟨front, back, rfl, hb⟩ := (h.2 k' w).mp hw
    refine ⟨front.map fun e => (e.1, g e.2), back.map fun e => (e.1, g e.2), by simp, fun v' hv => ?_⟩
    obtain ⟨⟨k2, w2⟩, hw2, e2⟩ := List.mem_map.mp hv
    simp only [Prod.mk.injEq] at e2
    obtain ⟨rfl, _⟩ := e2
    exact hb w2 hw2
  · rintro ⟨front, back, e, hb⟩
    obtain ⟨f1, b1, rfl, e1, e2⟩ := List.map_eq_append_iff.mp e
    obtain ⟨⟨k', w⟩, b2, rfl, e3, e4⟩ := List.map_eq_cons_iff.mp e2
    simp only [Prod.mk.injEq] at e3
    obtain ⟨rfl, rfl⟩ := e3
    refine List.mem_map.mpr ⟨(k', w), (h.2 _ _).mpr ⟨f1, b2, rfl, fun v' hv => ?_⟩, rfl⟩
    refine hb (g v') ?_
    rw [← e4]
    exact List.mem_map.mpr ⟨_, hv, rfl⟩

/-- The same text, if its numbers stand for others. -/
theorem doc_mapNum {N N' : List Char → SJNumber → Prop} {f : SJNumber → SJNumber} (hN : ∀ t n, N t n → N' t (f n)) {d : Nat}
    {t : List Char} {j : SJValue} (h : JsonDoc N d t j) : JsonDoc N' d t (j.mapNum f) := by
  induction h with
  | null d => exact .null d
  | true d => exact .true d
  | false d => exact .false d
  | number d h => exact .number d (hN _ _ h)
  | string d h => exact .string d h
  | emptyArray d hw => exact .emptyArray d hw
  | emptyObject d hw => exact .emptyObject d hw
  | @array d es hne hw h ih =>
    have := JsonDoc.array (N := N') (d := d) (es := es.map fun e => ⟨e.before, e.text, e.after, e.value.mapNum f⟩) (by simpa using hne)
      (by
        intro e he
        obtain ⟨e', he', rfl⟩ := List.mem_map.mp he
        exact hw e' he')
      (by
        intro e he
        obtain ⟨e', he', rfl⟩ := List.mem_map.mp he
        exact ih e' he')
    rw [List.map_map, List.map_map] at this
    rw [SJValue.mapNum, SJValue.mapNumList_eq, List.map_map]
    exact this
  | @object d ms m hne hw hk h hm ih =>
    have := JsonDoc.object (N := N') (d := d)
      (ms := ms.map fun x => ⟨x.before, x.keyText, x.key, x.middle, ⟨x.element.before, x.element.text, x.element.after, x.element.value.mapNum f⟩⟩)
      (m := m.map fun e => (e.1, e.2.mapNum f)) (by simpa using hne)
      (by
        intro e he
        obtain ⟨e', he', rfl⟩ := List.mem_map.mp he
        exact hw e' he')
      (by
        intro e he
        obtain ⟨e', he', rfl⟩ := List.mem_map.mp he
        exact hk e' he')
      (by
        intro e he
        obtain ⟨e', he', rfl⟩ := List.mem_map.mp he
        exact ih e' he')
      (by
        have := gathered_map (SJValue.mapNum f) hm
        rw [List.map_map] at this ⊢
        exact this)
    rw [List.map_map] at this
    rw [SJValue.mapNum, SJValue.mapNumEntries_eq]
    exact this

/-- Floats that are not too close to the largest float. -/
def NotHuge (b : UInt64) : Prop := |f64Value b| ≤ 17975 * 10 ^ 304

theorem zip_self {α : Type} {l : List α} {x y : α} (h : (x, y) ∈ l.zip l) : x = y ∧ x ∈ l := by
  induction l with
  | nil => cases h
  | cons a l ih =>
    rw [List.zip_cons_cons, List.mem_cons] at h
    rcases h with h | h
    · obtain ⟨rfl, rfl⟩ := Prod.mk.inj h
      exact ⟨rfl, by simp⟩
    · exact ⟨(ih h).1, by simp [(ih h).2]⟩

theorem mapNum_near {P : UInt64 → Prop} {f : SJNumber → SJNumber}
    (hf : ∀ n, SJValue.Made P (.number n) → JsonNear (.number n) (.number (f n))) {j : SJValue} (h : j.Made P) :
    JsonNear j (j.mapNum f) := by
  induction h with
  | null => exact .null
  | bool b => exact .bool b
  | posInt h => exact hf _ (.posInt h)
  | negInt h h0 => exact hf _ (.negInt h h0)
  | float h hp => exact hf _ (.float h hp)
  | string s => exact .string s
  | @array a h ih =>
    rw [SJValue.mapNum, SJValue.mapNumList_eq]
    refine .array (by simp) fun x hx => ?_
    rw [List.zip_map_right] at hx
    obtain ⟨⟨v, v'⟩, hv, rfl⟩ := List.mem_map.mp hx
    obtain ⟨rfl, hv2⟩ := zip_self hv
    exact ih v hv2
  | @object m ho h ih =>
    rw [SJValue.mapNum, SJValue.mapNumEntries_eq]
    refine .object (by simp) fun x hx => ?_
    rw [List.zip_map_right] at hx
    obtain ⟨⟨⟨k, v⟩, v'⟩, hv, rfl⟩ := List.mem_map.mp hx
    obtain ⟨rfl, hv2⟩ := zip_self hv
    exact ih k v hv2

/-- **C83**, in part: JSON with any floats, only not too close to the largest one, printed compactly or indented, is read
back as the same JSON in which no float has changed by more than two parts in 10¹⁵, if it is nested at most 127
deep. That floats change is `C83_refuted_float`. -/
theorem C83_near_partial {j : SJValue} (h : j.Made fun b => |f64Value b| ≤ 17975 * 10 ^ 304) (hd : j.depth ≤ 127) :
    ∃ j', JsonNear j j' ∧ parse (print j) = some j' ∧ parse (pretty 0 j) = some j' := by
  classical
  have key : ∀ n, SJValue.Made NotHuge (.number n) → ∃ n', JsonNear (.number n) (.number n') ∧
      ∃ pos c cs, numberText n = (if pos then c :: cs else '-' :: c :: cs) ∧ c ∈ decimalDigits ∧
        ∀ rest, Stops rest → number pos (c :: cs ++ rest) = some (n', rest) := by
    intro n hn
    cases hn with
    | @posInt n h =>
      exact ⟨_, .posInt n, printed_reads (Q := FewDigits) (fun _ _ h => h) _ _ ⟨.posInt h, rfl⟩⟩
    | @negInt n h h0 =>
      exact ⟨_, .negInt n, printed_reads (Q := FewDigits) (fun _ _ h => h) _ _ ⟨.negInt h h0, rfl⟩⟩
    | @float b hf hp =>
      obtain ⟨b', h1, h2⟩ := floatText_near hf hp
      exact ⟨_, .float h1, h2⟩
  let f : SJNumber → SJNumber := fun n => if h : SJValue.Made NotHuge (.number n) then (key n h).choose else n
  have hf : ∀ n, SJValue.Made NotHuge (.number n) → JsonNear (.number n) (.number (f n)) ∧
      ∃ pos c cs, numberText n = (if pos then c :: cs else '-' :: c :: cs) ∧ c ∈ decimalDigits ∧
        ∀ rest, Stops rest → number pos (c :: cs ++ rest) = some (f n, rest) := by
    intro n hn
    have := (key n hn).choose_spec
    simp only [f, dif_pos hn]
    exact this
  have hR : SerdeJson.Reads (fun t n' => ∃ n, SJValue.Made NotHuge (.number n) ∧ t = numberText n ∧ n' = f n) := by
    rintro t n' ⟨n, hn, rfl, rfl⟩
    exact (hf n hn).2
  have hN : ∀ n, SJValue.Made NotHuge (.number n) → Printed NotHuge (numberText n) n := fun n h => ⟨h, rfl⟩
  refine ⟨j.mapNum f, mapNum_near (fun n hn => (hf n hn).1) h, ?_, ?_⟩
  · exact parse_complete hR ⟨[], _, [], by simp, blank_nil, blank_nil,
      doc_mapNum (fun t n h => ⟨n, h.1, h.2, rfl⟩) (print_doc hN h hd)⟩
  · exact parse_complete hR ⟨[], _, [], by simp, blank_nil, blank_nil,
      doc_mapNum (fun t n h => ⟨n, h.1, h.2, rfl⟩) (pretty_doc hN h hd 0)⟩

/-- The float of `C83_refuted_float`, a third, and a tiny one. -/
example : ∃ j, JsonNear (.array [.number (.float 0x433FFFFFFFFFFFFF), .number (.float 0xBFD5555555555555), .number (.float 1)]) j ∧
    parse (print (.array [.number (.float 0x433FFFFFFFFFFFFF), .number (.float 0xBFD5555555555555), .number (.float 1)])) = some j := by
  have hh : ∀ b ∈ [(0x433FFFFFFFFFFFFF : UInt64), 0xBFD5555555555555, 1], F64Finite b ∧ |f64Value b| ≤ 17975 * 10 ^ 304 := by
    have hbig : ∀ x : ℚ, |x| ≤ 10 ^ 16 → |x| ≤ 17975 * 10 ^ 304 := by
      intro x hx
      have : (10 : ℚ) ^ 16 ≤ 10 ^ 304 := pow_le_pow_right₀ (by norm_num) (by norm_num)
      have h1 : (1 : ℚ) * 10 ^ 304 ≤ 17975 * 10 ^ 304 := mul_le_mul_of_nonneg_right (by norm_num) (by positivity)
      rw [one_mul] at h1
      exact hx.trans (this.trans h1)
    intro b hb
    refine ⟨?_, hbig _ ?_⟩
    · simp only [List.mem_cons, List.not_mem_nil, or_false] at hb
      rcases hb with rfl | rfl | rfl <;> (unfold F64Finite; decide)
    · simp only [List.mem_cons, List.not_mem_nil, or_false] at hb
      rcases hb with rfl | rfl | rfl <;> decide +kernel
  obtain ⟨j', h1, h2, _⟩ := C83_near_partial (j := .array [.number (.float 0x433FFFFFFFFFFFFF), .number (.float 0xBFD5555555555555),
    .number (.float 1)]) (.array fun x hx => by
      simp only [List.mem_cons, List.not_mem_nil, or_false] at hx
      rcases hx with rfl | rfl | rfl <;> exact .float (hh _ (by simp)).1 (hh _ (by simp)).2) (by decide)
  exact ⟨j', h1, h2⟩

/-- **C26** for JSON, in part: with any floats, only not too close to the largest one, JSON comes back from its bytes
as the same JSON in which no float has changed by more than two parts in 10¹⁵. That floats change is
`C26_refuted_json_float`. -/
theorem C26_json_near_partial {env : Env} (hs : env.Serde) {j : SJValue} (h : j.Made fun b => |f64Value b| ≤ 17975 * 10 ^ 304)
    (hd : j.depth ≤ 127) (hl : (utf8 (print j)).length < 2 ^ 64) :
    ∃ bytes j', ser env none (.json j) = .ok bytes ∧ JsonNear j j' ∧ Inverts (deser env none) bytes (.json j') := by
  obtain ⟨j', h1, h2, _⟩ := C83_near_partial h hd
  obtain ⟨bytes, h3, h4⟩ := json_rereads (env := env) (j := j) (j' := j') (by rw [hs.print]; exact hl) (by rw [hs.print, hs.parse]; exact h2)
  exact ⟨bytes, j', h3, h1, h4⟩

example : ∃ bytes j', ser serdeEnv none (.json (.number (.posInt 7))) = .ok bytes ∧ JsonNear (.number (.posInt 7)) j' ∧
    Inverts (deser serdeEnv none) bytes (.json j') :=
  C26_json_near_partial serdeEnv_serde (.posInt (by decide)) (by decide) (by decide +kernel)

end Souris
