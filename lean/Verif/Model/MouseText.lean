import Verif.Model.Debug
import Verif.Model.ErrorText
import Verif.Model.Mouse

/-!
# What `mouse` writes to the terminal, and further texts

mouse/main.rs L140-330: the texts of the messages of `Model/Mouse.lean`, each followed by a line break; the empty lines
of L194, L199, L214 and L244 are not in the log. client.rs L40-51: `Display for CreationResult`. integer.rs L387-400:
`Display` and the derived `Debug` of `FloatToIntegerConversionError`.
-/

namespace Souris

open Fault (say wrap)

/-- client.rs L40-51. -/
def CreationResult.display : CreationResult → List Char
  | insertedKeyIntoExistingDB => say "Added new key to existing database" []
  | overwroteKeyInExistingDB => say "Overwrote existing key in existing database" []
  | foundExistingKey => say "Found existing key in existing database, didn't overwrite" []
  | insertedKeyIntoNewDB => say "Added new key to new database" []
  | unableToFindDB => say "Unable to find database" []

/-- integer.rs L387-398. -/
def FloatToIntegerError.display : FloatToIntegerError → List Char
  | decimalsNotSupported d => say "Floating point decimals not supported for integer values: " (StdText.f64Text d)
  | tooLarge => say "Floating point number was too large" []
  | notFinite => say "Floating point number was not finite" []

/-- integer.rs L377: derived. -/
def FloatToIntegerError.debug : FloatToIntegerError → List Char
  | decimalsNotSupported d => wrap "DecimalsNotSupported(" (StdText.f64Debug d)
  | tooLarge => say "TooLarge" []
  | notFinite => say "NotFinite" []

/-- std: a character in `{:?}` of a path, where both quotes are escaped. -/
def Shows.pathEscape (sh : Shows) (c : Char) : List Char := if c = '\'' then ['\\', '\''] else sh.escape '"' c

/-- std: `{:?}` of a path, if its name is UTF-8. -/
def Shows.pathLiteral (sh : Shows) (p : List Char) : List Char := '"' :: (p.flatMap sh.pathEscape ++ ['"'])

/-- main.rs: the texts. -/
def Message.text (env : Env) (sh : Shows) : Message → List Char
  | cancelledClearing => say "Cancelled clearing database" []
  | created => say "Database successfully created" []
  | cleared => say "Successfully cleared database" []
  | store s => Store.display env sh s
  | debugStore s => Store.debug sh true s
  | importedNew => say "Created new database with JSON." []
  | importedOver => say "Overwrote existing database with JSON." []
  | receivedKey k => say "Received Key: " k
  | receivedValue v => say "Received Value: " (v.display env sh)
  | creation c => c.display
  | cancelledAddition => say "Cancelled addition" []
  | alreadyEmpty => say "Database already empty." []
  | removedKey => say "Successfully removed Key" []
  | cancelledRemoval => say "Cancelled removing database." []
  | isEmpty => say "Database is empty." []
  | cancelledUpdate => say "Cancelled updating key-value pair." []
  | converting name => say "Received Database " (sh.strLiteral name ++ say ", converting to JSON" [])
  | writing path => say "Converted to JSON, writing to " (sh.pathLiteral path)
  | unableToConvert =>
    say "Unable to convert to JSON - ensure there are no NaN/infinite floats or integers which cannot fit into the range from i64::MIN to u64::MAX" []
  | removedDatabase => say "Successfully removed database" []
  | reserved => say "That name is reserved." []

end Souris
