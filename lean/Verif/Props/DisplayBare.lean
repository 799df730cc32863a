import Verif.Model.DisplayBare
import Verif.Props.DisplayText

/-! # How values are printed in builds without `std` (C78, C88) -/

namespace Souris

open StdText Value SerdeJson

theorem bareItems_list (env : Env) (sh : Shows) (a : List Value) : '[' :: bareItems env sh a = listText (a.map (displayBare env sh)) := by
  have tail : ∀ a : List Value, bareTail env sh a = (a.map fun x => [',', ' '] ++ displayBare env sh x).flatten ++ [']'] := by
    intro a
    induction a with
    | nil => rw [bareTail]; rfl
    | cons x a ih => rw [bareTail, ih]; simp
  cases a with
  | nil => rw [bareItems]; rfl
  | cons x a =>
    unfold listText
    rw [List.map_cons, intercalate_tail, bareItems, tail]
    simp [Function.comp_def]

theorem bareEntries_rows (env : Env) (sh : Shows) (m : List (List Char × Value)) :
    '{' :: bareEntries env sh true m = bracedRows ((m.map Prod.fst).zip ((m.map Prod.snd).map (displayBare env sh))) := by
  have tail : ∀ m : List (List Char × Value), bareEntries env sh false m =
      (m.map fun p => [',', ' '] ++ (p.1 ++ [':', ' '] ++ displayBare env sh p.2)).flatten ++ ['}'] := by
    intro m
    induction m with
    | nil => rw [bareEntries]; rfl
    | cons p m ih =>
      obtain ⟨k, v⟩ := p
      rw [bareEntries, ih]
      simp
  have zip : (m.map Prod.fst).zip ((m.map Prod.snd).map (displayBare env sh)) = m.map fun p => (p.1, displayBare env sh p.2) := by
    rw [List.map_map, List.zip_map']
    rfl
  rw [zip]
  unfold bracedRows
  cases m with
  | nil => rw [bareEntries]; rfl
  | cons p m =>
    obtain ⟨k, v⟩ := p
    rw [List.map_cons, List.map_cons, intercalate_tail, bareEntries, tail]
    simp [Function.comp_def]

theorem displayBare_flat (env : Env) (sh : Shows) {v : Value} (h : Flat v) : displayBare env sh v = display env sh v := by
  cases v <;> first | exact h.elim | rw [displayBare, display]

/-- **C88**, partial: in builds without `std` values are printed in the same way, with maps in braces. Missing:
timestamps with a leap second elsewhere than in second 59 (see `C86_refuted_leap`). -/
theorem C88_bare_partial {env : Env} (hs : env.Serde) (hc : env.Chrono) (sh : Shows) {v : Value} (hv : v.Printable) :
    ShownAs sh.plain bracedRows v (displayBare env sh.withStd v) :=
  shownAs_of hs hc sh (fun _ h => displayBare_flat env _ h) (fun a => by rw [displayBare, bareItems_list])
    (fun m => by rw [displayBare, bareEntries_rows]) hv

/-- **C78** in builds without `std`: a value without maps is printed with the same characters. -/
theorem C78_bare_same (env : Env) (sh : Shows) {v : Value} (h : v.MapFree) : displayBare env sh v = display env sh v := by
  induction h with
  | @flat v ha hm =>
    refine displayBare_flat env sh ?_
    cases v with
    | array a => exact absurd rfl (ha a)
    | map m => exact absurd rfl (hm m)
    | _ => trivial
  | array h ih =>
    rw [displayBare, display, bareItems_list, displayItems_list]
    exact congrArg listText (List.map_congr_left ih)

/-- **C78** is violated in builds without `std`: the keys of maps are not in quotes, so maps with one and with two
entries can look alike, and a map can look like a text that is put together otherwise. -/
theorem C78_refuted_bare_map (env : Env) (sh : Shows) : ∃ m n : List (List Char × Value), m.length ≠ n.length ∧
    (m.map Prod.fst).Nodup ∧ (n.map Prod.fst).Nodup ∧ Store.displayBare env sh m = Store.displayBare env sh n := by
  refine ⟨[(['a', ':', ' ', 'n', 'u', 'l', 'l', ',', ' ', 'b'], .null)], [(['a'], .null), (['b'], .null)], by decide, by decide, by decide, ?_⟩
  simp only [Store.displayBare, displayBare, bareEntries]
  rfl

/-- Maps are in braces, and so are databases. -/
example : Store.displayBare chronoEnv (Shows.withStd ⟨fun c => decide (32 ≤ c.toNat ∧ c.toNat < 127), fun _ => [], fun _ => [], fun _ => [], fun _ => []⟩)
    [(['k'], .array [.null, .map []]), (['l', ' '], .string ['v'])] = "{k: [null, {}], l : \"v\"}".toList := by
  simp only [Store.displayBare, displayBare, bareItems, bareTail, bareEntries, Shows.strLiteral, List.flatMap_cons, List.flatMap_nil,
    Shows.escape, Shows.withStd]
  decide +kernel

example : (Value.array [.null, .array [.boolean true]]).MapFree := by
  refine .array fun v hv => ?_
  simp only [List.mem_cons, List.not_mem_nil, or_false] at hv
  rcases hv with rfl | rfl
  · exact .flat (fun _ => nofun) (fun _ => nofun)
  · refine .array fun v hv => ?_
    rw [List.mem_singleton.mp hv]
    exact .flat (fun _ => nofun) (fun _ => nofun)

end Souris
