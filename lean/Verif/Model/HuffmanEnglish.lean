import Verif.Model.Huffman

/-!
# The preset English coder (crates/sourisdb/src/utilities/huffman.rs L475-599)
-/

namespace Souris

namespace Huffman

/-- huffman.rs L485-581: the table of character codes and frequencies, in source order. -/
def englishTable : List (Nat × Nat) := [
   (32, 2643715), (101, 1358462), (116, 998648), (97, 966445), (110, 868336), (105, 864695),
   (111, 854979), (115, 818629), (114, 812926), (108, 507744), (100, 503130), (104, 413245),
   (99, 394475), (10, 308889), (117, 303678), (109, 286203), (112, 273927), (102, 248498),
   (103, 202023), (46, 174421), (121, 171873), (98, 163239), (119, 150923), (44, 136229),
   (118, 123365), (48, 93385), (107, 78030), (49, 77905), (83, 48747), (84, 48438),
   (67, 47133), (50, 43486), (56, 40276), (53, 39868), (65, 39088), (57, 38532),
   (120, 36389), (51, 34498), (73, 32991), (45, 32765), (54, 30291), (52, 29007),
   (55, 28783), (77, 28612), (66, 27432), (34, 24856), (39, 23790), (80, 21916),
   (69, 20413), (78, 20130), (70, 19253), (82, 17414), (68, 17241), (85, 16450),
   (113, 15912), (76, 15848), (71, 14689), (74, 13907), (72, 13809), (79, 12954),
   (87, 12698), (106, 9744), (122, 9092), (47, 8198), (60, 6959), (62, 6949),
   (75, 6008), (41, 5229), (40, 5219), (86, 4033), (89, 3975), (58, 1899),
   (81, 1578), (90, 1360), (88, 1037), (59, 117), (63, 73), (127, 49),
   (94, 35), (38, 32), (43, 24), (91, 11), (93, 10), (33, 8),
   (36, 8), (42, 7), (61, 4), (126, 3), (9, 2), (95, 2),
   (27, 1), (123, 1), (5, 1), (30, 1), (64, 1)]

/-- huffman.rs L582-584: `char::from` of each code, collected into a map. The codes are distinct
(`englishTable_nodup`), so no entry is overwritten. -/
def englishFreqs : List (Char × Nat) := englishTable.map (fun p => (Char.ofNat p.1, p.2))

/-- huffman.rs L482-596: `new_with_english_frequencies`; L586 unwraps. -/
def newEnglish (ord : List (Node Char × Nat) → List (Node Char × Nat)) : Out Empty (Huffman Char) :=
  match nodeTree ord englishFreqs with
  | .ok root => .ok (ofRoot root)
  | .err _ => .panic .unwrapNone
  | .panic p => .panic p

end Huffman

end Souris
