import Verif.Lemmas.IgnoreValue
import Verif.Lemmas.JsonCut
import Verif.Props.ImaginaryText

/-! # Which members of a complex number as text are skipped (C98) -/

namespace Souris

open SerdeJson Imaginary

/-- **C98**: a member that is neither part of the number may have any JSON as its value, nested as deep as one likes,
with numbers of any size and with escapes that make up no characters, and nothing else. -/
theorem C98_ignored {cs rest : List Char} (hr : Stops rest) :
    ignoreValue cs = some rest ↔ ∃ w v, JsonBlank w ∧ LooseDoc v ∧ cs = w ++ (v ++ rest) := by
  constructor
  · intro h
    obtain ⟨w, v, h1, h2, h3⟩ := ignoreValue_sound h
    exact ⟨w, v, h1, h3, h2⟩
  · rintro ⟨w, v, h1, h2, rfl⟩
    exact ignoreValue_complete h2 h1 hr

theorem chars_loose {t s : List Char} (h : JsonChars t s) : LooseChars t := by
  induction h with
  | nil => exact .nil
  | plain h1 h2 h3 _ ih => exact .plain h1 h2 h3 ih
  | short hx _ ih => exact .short hx ih
  | unit hu _ ih => exact .unit hu ih
  | pair hu hu' _ _ _ _ ih => exact .unit hu (.unit hu' ih)

/-- **C98**: all that is JSON may be such a value. -/
theorem C98_ignored_json {d : Nat} {t : List Char} {j : SJValue} (h : JsonDoc JsonClose d t j) : LooseDoc t := by
  induction h with
  | null => exact .null
  | true => exact .true
  | false => exact .false
  | number d h =>
    cases h with
    | posInt h _ => exact .pos (whole_real h)
    | negInt h _ _ => exact .neg (whole_real h)
    | posFloat h => exact .pos h
    | negFloat h => exact .neg h
  | string d h => exact .string (chars_loose h)
  | emptyArray d hw => exact .emptyArray hw
  | @array d es hne hw h ih =>
    have := LooseDoc.array (es := es.map fun e => (e.before, e.text, e.after)) (by simpa using hne)
      (fun e he => by obtain ⟨x, hx, rfl⟩ := List.mem_map.mp he; exact hw x hx)
      (fun e he => by obtain ⟨x, hx, rfl⟩ := List.mem_map.mp he; exact ih x hx)
    have e : (es.map fun e => (e.before, e.text, e.after)).map (fun e => e.1 ++ (e.2.1 ++ e.2.2)) = es.map JsonElement.whole := by
      rw [List.map_map]
      exact List.map_congr_left fun e _ => by simp [JsonElement.whole]
    rwa [e] at this
  | emptyObject d hw => exact .emptyObject hw
  | @object d ms m hne hw hk h hm ih =>
    have := LooseDoc.object (ms := ms.map fun x => ⟨x.before, x.keyText, x.key, x.middle, x.element.before, x.element.text, x.element.after⟩)
      (by simpa using hne)
      (fun e he => by
        obtain ⟨x, hx, rfl⟩ := List.mem_map.mp he
        exact ⟨(hw x hx).1, chars_loose (hk x hx), (hw x hx).2.1, (hw x hx).2.2.1, (hw x hx).2.2.2⟩)
      (fun e he => by obtain ⟨x, hx, rfl⟩ := List.mem_map.mp he; exact ih x hx)
    have e : (ms.map fun x => (⟨x.before, x.keyText, x.key, x.middle, x.element.before, x.element.text, x.element.after⟩ : MemberText)).map
        MemberText.whole = ms.map JsonMember.whole := by
      rw [List.map_map]
      exact List.map_congr_left fun e _ => by simp [JsonMember.whole, JsonElement.whole, MemberText.whole]
    rwa [e] at this

/-- **C98**, straight from text: whatever is read says the number that is read. -/
theorem C98_text_sound {s : List Char} {z : Imaginary} (h : ofJsonText ignoreValue s = some z) : ComplexText LooseDoc s z :=
  C98_direct_sound (fun _ _ h => ignoreValue_sound h) h

/-- **C98**, straight from text: a text is read as a number with these whole parts exactly if it says it. -/
theorem C98_text_cartesian {s : List Char} {a b : Int} :
    (∃ re im, ofJsonText ignoreValue s = some (.cartesian re im) ∧ re.value = a ∧ im.value = b) ↔
      ∃ re im, ComplexText LooseDoc s (.cartesian re im) ∧ re.value = a ∧ im.value = b := by
  constructor
  · rintro ⟨re, im, h, h1, h2⟩
    exact ⟨re, im, C98_text_sound h, h1, h2⟩
  · rintro ⟨re, im, h, rfl, rfl⟩
    exact C98_direct_cartesian (fun t ht w rest hw hr => ignoreValue_complete ht hw hr) h

/-- **C98**, straight from text: two numbers that fit floats are read as modulus and argument; what is read is about
the two numbers (`C98_text_sound`). -/
theorem C98_text_polar {s : List Char} (h : NamedText "PolarForm".toList
      (PairText (fun t (_ : Unit) => JsonToken t) LooseDoc "modulus".toList "argument".toList · () ()) s) :
    ∃ md ar, ofJsonText ignoreValue s = some (.polar md ar) ∧ ComplexText LooseDoc s (.polar md ar) := by
  obtain ⟨md, ar, h⟩ := C98_direct_polar (fun t ht w rest hw hr => ignoreValue_complete ht hw hr) h
  exact ⟨md, ar, h, C98_text_sound h⟩

/-- Another member, with an escape that is no character, is skipped. -/
example : ofJsonText ignoreValue
    "{\"CartesianForm\":{\"imaginary\":-2, \"x\":[{\"\\ud800\":[1e999]} , []],\"real\":1}}".toList =
    some (.cartesian (Integer.ofUnsigned 8 1) (Integer.ofSigned 8 (-2))) := by
  decide +kernel

/-- A comma before the end of a list is an error. -/
example : ignoreValue "[1,],".toList = none ∧ ignoreValue "{,".toList = none ∧ ignoreValue "[1}".toList = none ∧
    ignoreValue " [ ] x".toList = some " x".toList := by decide +kernel

end Souris
