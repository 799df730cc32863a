import Verif.Spec.Huffman

/-! # Specification vocabulary for the preset English coder -/

namespace Souris

/-- The characters of the preset, by ranges: the printable ASCII characters except
`#`, `%`, `\`, a backquote, `|` and `}`; tab, newline, delete, and the control characters 5, 27 and
30. -/
def EnglishChar (c : Char) : Prop :=
  (32 ≤ c.toNat ∧ c.toNat ≤ 126 ∧ c ∉ ['#', '%', '\\', '`', '|', '}']) ∨
    c ∈ ['\t', '\n', '\x05', '\x1b', '\x1e', '\x7f']

instance (c : Char) : Decidable (EnglishChar c) := by unfold EnglishChar; infer_instance

/-- How often each character occurs in the corpus the preset describes, in character order (the
numbers of huffman.rs L485-581, written down a second time so that a slip in the model's table shows). -/
def englishCounts : List (Char × Nat) := [
  ('\x05', 1), ('\t', 2), ('\n', 308889), ('\x1b', 1), ('\x1e', 1), (' ', 2643715), ('!', 8),
  ('"', 24856), ('$', 8), ('&', 32), ('\'', 23790), ('(', 5219), (')', 5229), ('*', 7), ('+', 24),
  (',', 136229), ('-', 32765), ('.', 174421), ('/', 8198), ('0', 93385), ('1', 77905),
  ('2', 43486), ('3', 34498), ('4', 29007), ('5', 39868), ('6', 30291), ('7', 28783), ('8', 40276),
  ('9', 38532), (':', 1899), (';', 117), ('<', 6959), ('=', 4), ('>', 6949), ('?', 73), ('@', 1),
  ('A', 39088), ('B', 27432), ('C', 47133), ('D', 17241), ('E', 20413), ('F', 19253), ('G', 14689),
  ('H', 13809), ('I', 32991), ('J', 13907), ('K', 6008), ('L', 15848), ('M', 28612), ('N', 20130),
  ('O', 12954), ('P', 21916), ('Q', 1578), ('R', 17414), ('S', 48747), ('T', 48438), ('U', 16450),
  ('V', 4033), ('W', 12698), ('X', 1037), ('Y', 3975), ('Z', 1360), ('[', 11), (']', 10),
  ('^', 35), ('_', 2), ('a', 966445), ('b', 163239), ('c', 394475), ('d', 503130), ('e', 1358462),
  ('f', 248498), ('g', 202023), ('h', 413245), ('i', 864695), ('j', 9744), ('k', 78030),
  ('l', 507744), ('m', 286203), ('n', 868336), ('o', 854979), ('p', 273927), ('q', 15912),
  ('r', 812926), ('s', 818629), ('t', 998648), ('u', 303678), ('v', 123365), ('w', 150923),
  ('x', 36389), ('y', 171873), ('z', 9092), ('{', 1), ('~', 3), ('\x7f', 49)]

/-- A text in which every character occurs as often as in the corpus. -/
def EnglishCorpus (text : List Char) : Prop :=
  (∀ c ∈ text, EnglishChar c) ∧ ∀ p ∈ englishCounts, text.count p.1 = p.2

end Souris
