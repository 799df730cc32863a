import Verif.Model.ErrorText
import Verif.Spec.JsonText

/-!
# What errors should say, and which error lies below an error

`Holds e c`: the error `e` carries the error `c`.
-/

namespace Souris.Fault

/-- The text ends with `n` in binary, marked as such. -/
def EndsBinary (t : Text) (n : Nat) : Prop :=
  ∃ ds, ('0' :: 'b' :: ds) <:+ t ∧ ds ≠ [] ∧ (∀ c ∈ ds, c = '0' ∨ c = '1') ∧
    ds.foldl (fun acc c => 2 * acc + ['0', '1'].idxOf c) 0 = n

/-- The text ends with a space and `n` in decimal. -/
def EndsDecimal (t : Text) (n : Nat) : Prop := ∃ ds, (' ' :: ds) <:+ t ∧ JsonWhole ds ∧ digitsValue ds = n

inductive Holds : Any → Any → Prop
  | integerParse (e) : Holds (.integer (.integerParseError e)) (.foreign e)
  | huffmanInteger (e) : Holds (.huffman (.integer e)) (.integer e)
  | binaryInteger (e) : Holds (.binary (.integer e)) (.integer e)
  | binaryLz (e) : Holds (.binary (.lzFlex e)) (.foreign e)
  | binaryHuffman (e) : Holds (.binary (.huffman e)) (.huffman e)
  | valueInteger (e) : Holds (.value (.integer e)) (.integer e)
  | valueUtf8 (e) : Holds (.value (.nonUtf8String e)) (.foreign e)
  | valueJson (e) : Holds (.value (.serdeJson e)) (.foreign e)
  | valueTz (e) : Holds (.value (.tzError e)) (.foreign e)
  | valueBinary (e) : Holds (.value (.binary e)) (.binary e)
  | valueHuffman (e) : Holds (.value (.huffman e)) (.huffman e)
  | storeInteger (e) : Holds (.store (.integer e)) (.integer e)
  | storeValue (e) : Holds (.store (.value e)) (.value e)
  | storeJson (e) : Holds (.store (.serdeJson e)) (.foreign e)
  | storeHuffman (e) : Holds (.store (.huffman e)) (.huffman e)
  | storeBinary (e) : Holds (.store (.binary e)) (.binary e)
  | clientUreq (e) : Holds (.client (.ureq e)) (.foreign e)
  | clientReqwest (e) : Holds (.client (.reqwest e)) (.foreign e)
  | clientStore (e) : Holds (.client (.store e)) (.store e)
  | clientValue (e) : Holds (.client (.value e)) (.value e)
  | clientIo (e) : Holds (.client (.io e)) (.foreign e)
  | clientStatus (e) : Holds (.client (.invalidStatusCode e)) (.foreign e)
  | clientJson (e) : Holds (.client (.serdeJson e)) (.foreign e)
  | serverIo (e) : Holds (.server (.io e)) (.foreign e)
  | serverStore (e) : Holds (.server (.storeError e)) (.store e)
  | serverValue (e) : Holds (.server (.valueError e)) (.value e)
  | serverInteger (e) : Holds (.server (.integerSerError e)) (.integer e)
  | mouseIo (e) : Holds (.mouse (.io e)) (.foreign e)
  | mouseDialoguer (e) : Holds (.mouse (.dialoguer e)) (.foreign e)
  | mouseJson (e) : Holds (.mouse (.serdeJson e)) (.foreign e)
  | mouseValue (e) : Holds (.mouse (.value e)) (.value e)
  | mouseStore (e) : Holds (.mouse (.store e)) (.store e)
  | mouseClient (e) : Holds (.mouse (.client e)) (.client e)

/-- `e` leads to `c` in any number of steps. -/
inductive Below : Any → Any → Prop
  | self (e) : Below e e
  | step {e c d} (h : Holds e c) (t : Below c d) : Below e d

/-- Following `source` from `e` ends at `r`: what error reporters show as the root cause. -/
inductive Ends : Any → Any → Prop
  | stop {e} (h : e.source = none) : Ends e e
  | step {e c r} (h : e.source = some c) (t : Ends c r) : Ends e r

/-- `r` is the root cause of `e`: below `e`, and nothing lies below `r`. -/
def Root (e r : Any) : Prop := Below e r ∧ ∀ c, ¬ Holds r c

end Souris.Fault
