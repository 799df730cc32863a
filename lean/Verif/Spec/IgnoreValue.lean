import Verif.Spec.ImaginaryText

/-! # Specification of texts that are skipped as JSON values -/

namespace Souris

/-- The text between quotes, where escaped code units need not make up characters. -/
inductive LooseChars : List Char → Prop
  | nil : LooseChars []
  | plain {c : Char} {t : List Char} (h1 : c ≠ '"') (h2 : c ≠ '\\') (h3 : 32 ≤ c.toNat) (h : LooseChars t) : LooseChars (c :: t)
  | short {x : Char} {n : Nat} {t : List Char} (hx : (x, n) ∈ escapeTable) (h : LooseChars t) : LooseChars ('\\' :: x :: t)
  | unit {u t : List Char} {n : Nat} (hu : Hex4 u n) (h : LooseChars t) : LooseChars ('\\' :: 'u' :: (u ++ t))

/-- The white space is white, and there are quotes around the key. Which key it is does not matter. -/
def MemberText.Loose (m : MemberText) : Prop :=
  JsonBlank m.before ∧ LooseChars m.keyText ∧ JsonBlank m.middle ∧ JsonBlank m.inner ∧ JsonBlank m.after

/-- JSON, nested as deep as one likes, with numbers as large as one likes. -/
inductive LooseDoc : List Char → Prop
  | null : LooseDoc "null".toList
  | true : LooseDoc "true".toList
  | false : LooseDoc "false".toList
  | pos {t int frac : List Char} {e : Int} (h : JsonReal t int frac e) : LooseDoc t
  | neg {t int frac : List Char} {e : Int} (h : JsonReal t int frac e) : LooseDoc ('-' :: t)
  | string {t : List Char} (h : LooseChars t) : LooseDoc ('"' :: (t ++ ['"']))
  | emptyArray {w : List Char} (hw : JsonBlank w) : LooseDoc ('[' :: (w ++ [']']))
  | array {es : List (List Char × List Char × List Char)} (hne : es ≠ [])
      (hw : ∀ e ∈ es, JsonBlank e.1 ∧ JsonBlank e.2.2) (h : ∀ e ∈ es, LooseDoc e.2.1) :
      LooseDoc ('[' :: ([','].intercalate (es.map fun e => e.1 ++ (e.2.1 ++ e.2.2)) ++ [']']))
  | emptyObject {w : List Char} (hw : JsonBlank w) : LooseDoc ('{' :: (w ++ ['}']))
  | object {ms : List MemberText} (hne : ms ≠ []) (hw : ∀ m ∈ ms, m.Loose) (h : ∀ m ∈ ms, LooseDoc m.value) :
      LooseDoc ('{' :: ([','].intercalate (ms.map MemberText.whole) ++ ['}']))

end Souris
