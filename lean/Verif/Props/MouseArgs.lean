import Verif.Model.MouseArgs
import Verif.Spec.MouseArgs

/-! # C102: how `mouse` reads its command line -/

namespace Souris

namespace Args

/-- The flag for types. -/
def IsFlag (a : List Char) : Prop := a ∈ ["-a".toList, "--add-souris-types".toList]

/-- An argument that clap takes for an option. -/
def IsOption (a : List Char) : Prop := a ≠ ['-', '-'] ∧ ∃ x l, a = '-' :: x :: l

theorem arg_kinds (a : List Char) : a = ['-', '-'] ∨ IsOption a ∨ PlainArg a := by
  by_cases h : a = ['-', '-']
  · exact .inl h
  · right
    match a with
    | [] => exact .inr (.inr (by decide))
    | ['-'] => exact .inr (.inl rfl)
    | c :: l =>
      by_cases hc : c = '-'
      · subst hc
        cases l with
        | nil => exact .inr (.inl rfl)
        | cons x l => exact .inl ⟨h, x, l, rfl⟩
      · exact .inr (.inr (by simpa using hc))

theorem leaf_plain (c : Sub) (s : Seen) {a : List Char} (h : PlainArg a) (as : List (List Char)) :
    leaf c false s (a :: as) =
      if c.takesValue = true ∧ s.value = none ∧ ¬ (c.takesFile = true ∧ a = []) then leaf c false { s with value := some a } as
      else .error .usage := by
  rcases h with rfl | h
  · rw [leaf] <;> simp
  · rw [leaf]
    · rintro rfl; simp at h
    · intro a' e; subst e; simp at h
    · intro x a' e; subst e; simp at h

theorem shorts_ok {types : Bool} {x : Char} {l : List Char} {seen t : Bool} (h : shorts types false (x :: l) seen = .ok t) :
    types = true ∧ seen = false ∧ t = true ∧ x = 'a' ∧ l = [] := by
  rw [shorts] at h
  split at h
  · cases h
  · simp only [Bool.false_eq_true, and_false, if_false] at h
    split at h
    · rename_i hc
      cases l with
      | nil => rw [shorts] at h; cases h; exact ⟨hc.2.1, hc.2.2, rfl, hc.1, rfl⟩
      | cons y l =>
        rw [shorts] at h
        simp only [Bool.false_eq_true, and_false, if_false, Bool.true_eq_false] at h
        split at h <;> cases h
    · cases h

theorem long_ok {types : Bool} {a : List Char} {seen t : Bool} (h : long types false a seen = .ok t) :
    types = true ∧ seen = false ∧ t = true ∧ a = "add-souris-types".toList := by
  unfold long at h
  split at h
  · cases h
  · simp only [Bool.false_eq_true, and_false, if_false] at h
    split at h
    · rename_i hc; cases h; exact ⟨hc.2.1, hc.2.2, rfl, hc.1⟩
    · cases h

/-- The only option that the arguments of a command may have is the flag for types, once. -/
theorem leaf_option {c : Sub} {s : Seen} {a : List Char} (ha : IsOption a) {as : List (List Char)} {s' : Seen}
    (h : leaf c false s (a :: as) = .ok s') :
    c.takesTypes = true ∧ s.types = false ∧ IsFlag a ∧ leaf c false { s with types := true } as = .ok s' := by
  obtain ⟨hne, x, l, rfl⟩ := ha
  by_cases hx : x = '-'
  · subst hx
    have hl : l ≠ [] := by rintro rfl; exact hne rfl
    rw [leaf] at h
    · cases e : long c.takesTypes false l s.types with
      | error e' => rw [e] at h; cases h
      | ok t =>
        rw [e] at h
        obtain ⟨h1, h2, rfl, rfl⟩ := long_ok e
        exact ⟨h1, h2, by unfold IsFlag; decide, h⟩
    · rintro rfl; exact hl rfl
  · rw [leaf] at h
    · cases e : shorts c.takesTypes false (x :: l) s.types with
      | error e' => rw [e] at h; cases h
      | ok t =>
        rw [e] at h
        obtain ⟨h1, h2, rfl, rfl, rfl⟩ := shorts_ok e
        exact ⟨h1, h2, by unfold IsFlag; decide, h⟩
    · intro e; exact fun _ => hx e
    · intro e; exact hx e

theorem leaf_flag {c : Sub} {s : Seen} {a : List Char} (ha : IsFlag a) (hc : c.takesTypes = true) (hs : s.types = false)
    (as : List (List Char)) : leaf c false s (a :: as) = leaf c false { s with types := true } as := by
  unfold IsFlag at ha
  simp only [List.mem_cons, List.not_mem_nil, or_false] at ha
  rcases ha with rfl | rfl
  · have e : "-a".toList = ['-', 'a'] := by decide
    rw [e, leaf]
    · simp [shorts, hc, hs]
    · simp
    · simp
  · have e : "--add-souris-types".toList = '-' :: '-' :: "add-souris-types".toList := by decide
    rw [e, leaf]
    · have h1 : ¬ "add-souris-types".toList = "help".toList := by decide
      have h2 : ¬ "add-souris-types".toList = "version".toList := by decide
      simp only [long, if_neg h1, Bool.false_eq_true, and_false, if_false, hc, hs, and_self, if_true]
    · decide

theorem leaf_end (c : Sub) (s : Seen) (as : List (List Char)) : leaf c false s (['-', '-'] :: as) = leaf c true s as := by
  rw [leaf]

theorem leaf_behind {c : Sub} {s s' : Seen} {as : List (List Char)} (h : leaf c true s as = .ok s') :
    (as = [] ∧ s' = s) ∨ (∃ v, as = [v] ∧ c.takesValue = true ∧ s.value = none ∧ (c.takesFile = true → v ≠ []) ∧
      s' = { s with value := some v }) := by
  cases as with
  | nil => rw [leaf] at h; cases h; exact .inl ⟨rfl, rfl⟩
  | cons a as =>
    rw [leaf] at h
    split at h
    · rename_i hc
      cases as with
      | nil => rw [leaf] at h; cases h; exact .inr ⟨a, rfl, hc.1, hc.2.1, fun hf e => hc.2.2 ⟨hf, e⟩, rfl⟩
      | cons b as =>
        rw [leaf] at h
        simp at h
    · cases h

/-- Neither a value nor a flag is left. -/
theorem leaf_full {c : Sub} {s s' : Seen} {as : List (List Char)} (hv : c.takesValue = true → s.value ≠ none)
    (ht : c.takesTypes = true → s.types = true) (h : leaf c false s as = .ok s') : s' = s ∧ NoArgs as := by
  cases as with
  | nil => rw [leaf] at h; cases h; exact ⟨rfl, .none⟩
  | cons a as =>
    rcases arg_kinds a with rfl | ha | ha
    · rw [leaf_end] at h
      rcases leaf_behind h with ⟨rfl, rfl⟩ | ⟨v, _, h1, h2, _⟩
      · exact ⟨rfl, .ended⟩
      · exact (hv h1 h2).elim
    · obtain ⟨h1, h2, _⟩ := leaf_option ha h
      rw [ht h1] at h2
      cases h2
    · rw [leaf_plain c s ha, if_neg fun hc => hv hc.1 hc.2.1] at h
      cases h

/-- Only a value is left. -/
theorem leaf_value {c : Sub} {s s' : Seen} {as : List (List Char)} (hv : s.value = none)
    (ht : c.takesTypes = true → s.types = true) (h : leaf c false s as = .ok s') :
    (s' = s ∧ NoArgs as) ∨ (c.takesValue = true ∧ ∃ v, OneArg v as ∧ (c.takesFile = true → v ≠ []) ∧ s' = { s with value := some v }) := by
  cases as with
  | nil => rw [leaf] at h; cases h; exact .inl ⟨rfl, .none⟩
  | cons a as =>
    rcases arg_kinds a with rfl | ha | ha
    · rw [leaf_end] at h
      rcases leaf_behind h with ⟨rfl, rfl⟩ | ⟨v, rfl, h1, _, h3, rfl⟩
      · exact .inl ⟨rfl, .ended⟩
      · exact .inr ⟨h1, v, .behind, h3, rfl⟩
    · obtain ⟨h1, h2, _⟩ := leaf_option ha h
      rw [ht h1] at h2
      cases h2
    · rw [leaf_plain c s ha] at h
      split at h
      · rename_i hc
        obtain ⟨rfl, hn⟩ := leaf_full (s := { s with value := some a }) (by simp) ht h
        refine .inr ⟨hc.1, a, ?_, fun hf e => hc.2.2 ⟨hf, e⟩, rfl⟩
        cases hn with
        | none => exact .plain ha
        | ended => exact .ended ha
      · cases h

/-- What is found in the arguments of a command. -/
theorem leaf_sound {c : Sub} {s : Seen} {as : List (List Char)} (h : leaf c false {} as = .ok s) :
    (s.value = none) ∨
    (∃ v, c.takesValue = true ∧ s = ⟨some v, false⟩ ∧ OneArg v as ∧ (c.takesFile = true → v ≠ [])) ∨
    (∃ v, c.takesValue = true ∧ c.takesTypes = true ∧ s = ⟨some v, true⟩ ∧ FlagArg v as ∧ (c.takesFile = true → v ≠ [])) := by
  cases as with
  | nil => rw [leaf] at h; cases h; exact .inl rfl
  | cons a as =>
    rcases arg_kinds a with rfl | ha | ha
    · rw [leaf_end] at h
      rcases leaf_behind h with ⟨rfl, rfl⟩ | ⟨v, rfl, h1, _, h3, rfl⟩
      · exact .inl rfl
      · exact .inr (.inl ⟨v, h1, rfl, .behind, h3⟩)
    · obtain ⟨h1, _, hf, h⟩ := leaf_option ha h
      rcases leaf_value rfl (fun _ => rfl) h with ⟨rfl, _⟩ | ⟨h2, v, h3, h4, rfl⟩
      · exact .inl rfl
      · refine .inr (.inr ⟨v, h2, h1, rfl, ?_, h4⟩)
        cases h3 with
        | plain hp => exact .before hp hf
        | ended hp => exact .beforeEnded hp hf
        | behind => exact .behind hf
    · rw [leaf_plain c {} ha] at h
      split at h
      · rename_i hc
        have hfile : c.takesFile = true → a ≠ [] := fun hf e => hc.2.2 ⟨hf, e⟩
        cases as with
        | nil => rw [leaf] at h; cases h; exact .inr (.inl ⟨a, hc.1, rfl, .plain ha, hfile⟩)
        | cons b as =>
          rcases arg_kinds b with rfl | hb | hb
          · rw [leaf_end] at h
            rcases leaf_behind h with ⟨rfl, rfl⟩ | ⟨v, _, _, h2, _⟩
            · exact .inr (.inl ⟨a, hc.1, rfl, .ended ha, hfile⟩)
            · cases h2
          · obtain ⟨h1, _, hf, h⟩ := leaf_option hb h
            obtain ⟨rfl, hn⟩ := leaf_full (by simp) (fun _ => rfl) h
            refine .inr (.inr ⟨a, hc.1, h1, rfl, ?_, hfile⟩)
            cases hn with
            | none => exact .after ha hf
            | ended => exact .afterEnded ha hf
          · rw [leaf_plain c _ hb] at h
            simp at h
      · cases h

theorem leaf_none {c : Sub} (hc : c.takesValue = false) {s : Seen} {as : List (List Char)} (h : leaf c false {} as = .ok s)
    (ht : c.takesTypes = false) : NoArgs as :=
  (leaf_full (by simp [hc]) (by simp [ht]) h).2

theorem noArgs_leaf (c : Sub) (s : Seen) {as : List (List Char)} (h : NoArgs as) : leaf c false s as = .ok s := by
  cases h with
  | none => rw [leaf]
  | ended => rw [show "--".toList = ['-', '-'] by decide, leaf_end, leaf]

theorem oneArg_leaf {c : Sub} {s : Seen} {v : List Char} {as : List (List Char)} (hc : c.takesValue = true) (hs : s.value = none)
    (hf : c.takesFile = true → v ≠ []) (h : OneArg v as) : leaf c false s as = .ok { s with value := some v } := by
  have ok : c.takesValue = true ∧ s.value = none ∧ ¬ (c.takesFile = true ∧ v = []) := ⟨hc, hs, fun e => hf e.1 e.2⟩
  cases h with
  | plain hp => rw [leaf_plain c s hp, if_pos ok, leaf]
  | ended hp => rw [leaf_plain c s hp, if_pos ok, noArgs_leaf c _ .ended]
  | behind => rw [show "--".toList = ['-', '-'] by decide, leaf_end, leaf, if_pos ok, leaf]

theorem flagArg_leaf {c : Sub} {s : Seen} {v : List Char} {as : List (List Char)} (hc : c.takesValue = true)
    (ht : c.takesTypes = true) (hs : s.value = none) (hs' : s.types = false) (hf : c.takesFile = true → v ≠ [])
    (h : FlagArg v as) : leaf c false s as = .ok ⟨some v, true⟩ := by
  have ok : c.takesValue = true ∧ s.value = none ∧ ¬ (c.takesFile = true ∧ v = []) := ⟨hc, hs, fun e => hf e.1 e.2⟩
  cases h with
  | before hp hf' => rw [leaf_flag hf' ht hs']; exact oneArg_leaf (s := { s with types := true }) hc hs hf (.plain hp)
  | beforeEnded hp hf' => rw [leaf_flag hf' ht hs']; exact oneArg_leaf (s := { s with types := true }) hc hs hf (.ended hp)
  | behind hf' => rw [leaf_flag hf' ht hs']; exact oneArg_leaf (s := { s with types := true }) hc hs hf .behind
  | after hp hf' =>
    rw [leaf_plain c s hp, if_pos ok, leaf_flag hf' ht (by exact hs'), leaf]
  | afterEnded hp hf' =>
    rw [leaf_plain c s hp, if_pos ok, leaf_flag hf' ht (by exact hs'), noArgs_leaf c _ .ended]

theorem commandArgs_of {debug : Bool} {a : List Char} {c : Sub} (hc : findSub debug a = some c) {as : List (List Char)}
    {s : Seen} {k : Command} (hl : leaf c false {} as = .ok s) (hk : toCommand c s = .ok k) : CommandArgs debug (a :: as) k := by
  have hn : c.name = a := by simpa using List.find?_some hc
  have hm := List.mem_of_find?_eq_some hc
  subst hn
  rcases leaf_sound hl with h | ⟨v, h1, rfl, h2, h3⟩ | ⟨v, h1, h2, rfl, h3, h4⟩
  · cases c <;> simp only [toCommand, h, reduceCtorEq, Except.ok.injEq] at hk <;> subst hk
    · exact .addEntry (leaf_none rfl hl rfl)
    · exact .viewAll (leaf_none rfl hl rfl)
    · refine .debugViewAll (leaf_none rfl hl rfl) ?_
      cases debug
      · simp [subs] at hm
      · rfl
    · exact .removeEntry (leaf_none rfl hl rfl)
    · exact .updateEntry (leaf_none rfl hl rfl)
    · exact .removeDatabase (leaf_none rfl hl rfl)
  · cases c <;> simp only [Sub.takesValue, Bool.false_eq_true] at h1 <;> simp only [toCommand, Except.ok.injEq] at hk <;> subst hk
    · exact .createNew h2
    · exact .export h2 (h3 rfl)
    · exact .importFrom h2 (h3 rfl)
  · cases c <;> simp only [Sub.takesTypes, Bool.false_eq_true] at h2
    simp only [toCommand, Except.ok.injEq] at hk
    subst hk
    exact .exportTypes h3 (h4 rfl)

theorem findSub_none {debug : Bool} {a : List Char} :
    (a ≠ "help".toList ∧ findSub debug a = none) ↔ a ∉ commandWords debug := by
  have h : findSub debug a = none ↔ ∀ c ∈ subs debug, ¬ c.name = a := by
    unfold findSub
    rw [List.find?_eq_none]
    simp only [decide_eq_true_eq]
  have hp : (commandWords debug).Perm ("help".toList :: (subs debug).map Sub.name) := by
    cases debug <;> decide
  rw [h, hp.mem_iff, List.mem_cons, List.mem_map, not_or, not_exists]
  exact and_congr Iff.rfl ⟨fun h c hc => h c hc.1 hc.2, fun h c hc e => h c ⟨hc, e⟩⟩

theorem top_plain {debug : Bool} {host : Option (List Char)} {a : List Char} (hp : PlainArg a) (hw : a ∉ commandWords debug)
    (as : List (List Char)) : top debug host (a :: as) = if host = none then top debug (some a) as else .error .usage := by
  obtain ⟨h1, h2⟩ := findSub_none.mpr hw
  have side : ∀ (x : Char) (l : List Char), a = '-' :: x :: l → False := by
    rintro x l rfl
    rcases hp with hp | hp
    · cases hp
    · exact hp rfl
  rw [top, if_neg h1, h2]
  · exact side _ _
  · exact fun l => side _ l
  · exact side

theorem top_sub {debug : Bool} {host : Option (List Char)} {a : List Char} (h : a ≠ "help".toList) {c : Sub}
    (hc : findSub debug a = some c) (as : List (List Char)) : top debug host (a :: as) =
      match leaf c false {} as with
        | .error e => .error e
        | .ok s =>
          match toCommand c s, host with
          | .error e, _ => .error e
          | .ok _, none => .error .usage
          | .ok command, some h => .ok (h, command) := by
  rw [top.eq_def]
  simp only [if_neg h, hc]
  cases leaf c false {} as with
  | error e => rfl
  | ok s => cases toCommand c s <;> cases host <;> rfl

theorem shorts_top (x : Char) (l : List Char) (t : Bool) : shorts false true (x :: l) false ≠ .ok t := by
  intro h
  rw [shorts] at h
  simp only [Bool.false_eq_true, and_false, false_and, if_false] at h
  split at h
  · cases h
  · split at h <;> cases h

theorem long_top (l : List Char) (t : Bool) : long false true l false ≠ .ok t := by
  intro h
  unfold long at h
  simp only [Bool.false_eq_true, and_false, false_and, if_false] at h
  split at h
  · cases h
  · split at h <;> cases h

/-- At the top, no option lets the program go on. -/
theorem top_option {debug : Bool} {host : Option (List Char)} {a : List Char} (hw : a ∉ commandWords debug)
    (ha : a = ['-', '-'] ∨ IsOption a) (as : List (List Char)) (r : List Char × Command) : top debug host (a :: as) ≠ .ok r := by
  obtain ⟨h1, h2⟩ := findSub_none.mpr hw
  rw [top.eq_def]
  simp only [if_neg h1, h2]
  rcases ha with rfl | ⟨hne, x, l, rfl⟩
  · simp
  · by_cases hx : x = '-'
    · subst hx
      cases l with
      | nil => exact (hne rfl).elim
      | cons y l =>
        simp only
        cases e : long false true (y :: l) false with
        | error e => simp
        | ok t => exact (long_top _ _ e).elim
    · split
      · rename_i e; cases e; exact (hx rfl).elim
      · rename_i e; cases e; exact (hx rfl).elim
      · rename_i e
        cases e
        cases e : shorts false true (x :: l) false with
        | error e => simp
        | ok t => exact (shorts_top _ _ _ e).elim
      · rename_i h; exact (h _ _ rfl).elim

theorem top_host {debug : Bool} {h : List Char} {as : List (List Char)} {r : List Char × Command}
    (e : top debug (some h) as = .ok r) : r.1 = h ∧ CommandArgs debug as r.2 := by
  cases as with
  | nil => rw [top] at e; cases e
  | cons a as =>
    by_cases hw : a ∈ commandWords debug
    · by_cases hh : a = "help".toList
      · rw [top.eq_def] at e
        simp only [if_pos hh] at e
        cases e
      · cases hc : findSub debug a with
        | none => exact absurd hw (findSub_none.mp ⟨hh, hc⟩)
        | some c =>
          rw [top_sub hh hc] at e
          cases hl : leaf c false {} as with
          | error x => rw [hl] at e; cases e
          | ok s =>
            rw [hl] at e
            cases hk : toCommand c s with
            | error x => simp [hk] at e
            | ok k =>
              simp only [hk] at e
              cases e
              exact ⟨rfl, commandArgs_of hc hl hk⟩
    · rcases arg_kinds a with ha | ha | ha
      · exact (top_option hw (.inl ha) as r e).elim
      · exact (top_option hw (.inr ha) as r e).elim
      · rw [top_plain ha hw, if_neg (by simp)] at e
        cases e

theorem findSub_self {debug : Bool} {c : Sub} (h : c ∈ subs debug) : findSub debug c.name = some c := by
  cases debug <;> revert c <;> decide

theorem commandArgs_top {debug : Bool} {h : List Char} {as : List (List Char)} {k : Command} (hk : CommandArgs debug as k) :
    top debug (some h) as = .ok (h, k) := by
  have key (c : Sub) (hc : c ∈ subs debug) (as : List (List Char)) (s : Seen) (hl : leaf c false {} as = .ok s)
      (hs : toCommand c s = .ok k) : top debug (some h) (c.name :: as) = .ok (h, k) := by
    rw [top_sub (by cases c <;> decide) (findSub_self hc), hl]
    simp only [hs]
  cases hk with
  | createNew ha => exact key .createNew (by cases debug <;> decide) _ _ (oneArg_leaf rfl rfl (by simp [Sub.takesFile]) ha) rfl
  | addEntry ha => exact key .addEntry (by cases debug <;> decide) _ _ (noArgs_leaf _ _ ha) rfl
  | viewAll ha => exact key .viewAll (by cases debug <;> decide) _ _ (noArgs_leaf _ _ ha) rfl
  | debugViewAll ha hd => exact key .debugViewAll (by rw [hd]; decide) _ _ (noArgs_leaf _ _ ha) rfl
  | removeEntry ha => exact key .removeEntry (by cases debug <;> decide) _ _ (noArgs_leaf _ _ ha) rfl
  | updateEntry ha => exact key .updateEntry (by cases debug <;> decide) _ _ (noArgs_leaf _ _ ha) rfl
  | «export» ha hp => exact key .exportToJson (by cases debug <;> decide) _ _ (oneArg_leaf rfl rfl (fun _ => hp) ha) rfl
  | exportTypes ha hp => exact key .exportToJson (by cases debug <;> decide) _ _ (flagArg_leaf rfl rfl rfl rfl (fun _ => hp) ha) rfl
  | importFrom ha hp => exact key .importFromJson (by cases debug <;> decide) _ _ (oneArg_leaf rfl rfl (fun _ => hp) ha) rfl
  | removeDatabase ha => exact key .removeDatabase (by cases debug <;> decide) _ _ (noArgs_leaf _ _ ha) rfl

end Args

open Args

/-- **C102**: `mouse` starts a command on a host exactly if the command line is one that has it. -/
theorem C102_exact (debug : Bool) (args : List (List Char)) (host : List Char) (c : Command) :
    parse debug args = .ok (host, c) ↔ CommandLine debug args host c := by
  constructor
  · intro e
    unfold parse at e
    cases args with
    | nil => rw [top] at e; cases e
    | cons a as =>
      by_cases hw : a ∈ commandWords debug
      · by_cases hh : a = "help".toList
        · rw [top.eq_def] at e
          simp only [if_pos hh] at e
          cases e
        · cases hc : findSub debug a with
          | none => exact absurd hw (findSub_none.mp ⟨hh, hc⟩)
          | some c =>
            rw [top_sub hh hc] at e
            cases hl : leaf c false {} as with
            | error x => rw [hl] at e; cases e
            | ok s => rw [hl] at e; cases hk : toCommand c s <;> simp [hk] at e
      · rcases arg_kinds a with ha | ha | ha
        · exact (top_option hw (.inl ha) as _ e).elim
        · exact (top_option hw (.inr ha) as _ e).elim
        · rw [top_plain ha hw, if_pos rfl] at e
          obtain ⟨h1, h2⟩ := top_host e
          cases h1
          exact ⟨ha, hw, as, rfl, h2⟩
  · rintro ⟨hp, hw, as, rfl, h⟩
    unfold parse
    rw [top_plain hp hw, if_pos rfl, commandArgs_top h]

/-- **C102**: a command line has at most one meaning. -/
theorem C102_unique {debug : Bool} {args : List (List Char)} {h h' : List Char} {c c' : Command}
    (e : CommandLine debug args h c) (e' : CommandLine debug args h' c') : h = h' ∧ c = c' := by
  have := ((C102_exact ..).mpr e).symm.trans ((C102_exact ..).mpr e')
  simpa using this

/-- **C102**: every command that the build has can be given, for every database name and every non-empty file name. -/
theorem C102_every (debug : Bool) {host : List Char} (hp : PlainArg host) (hw : host ∉ commandWords debug) (c : Command)
    (hc : match c with
      | .exportToJson p _ | .importFromJson p => p ≠ []
      | .debugViewAll => debug = true
      | _ => True) : ∃ args, parse debug args = .ok (host, c) := by
  have key {as : List (List Char)} (h : CommandArgs debug as c) : ∃ args, parse debug args = .ok (host, c) :=
    ⟨host :: as, (C102_exact ..).mpr ⟨hp, hw, as, rfl, h⟩⟩
  cases c with
  | createNew n => exact key (.createNew .behind)
  | addEntry => exact key (.addEntry .none)
  | viewAll => exact key (.viewAll .none)
  | debugViewAll => exact key (.debugViewAll .none hc)
  | removeEntry => exact key (.removeEntry .none)
  | updateEntry => exact key (.updateEntry .none)
  | exportToJson p types =>
    cases types
    · exact key (.export .behind hc)
    · exact key (.exportTypes (.behind (f := "-a".toList) (by simp)) hc)
  | importFromJson p => exact key (.importFrom .behind hc)
  | removeDatabase => exact key (.removeDatabase .none)

/-- **C102**: exactly the hosts that are neither commands nor look like options can be talked to. -/
theorem C102_hosts (debug : Bool) (host : List Char) :
    (∃ args c, parse debug args = .ok (host, c)) ↔ PlainArg host ∧ host ∉ commandWords debug := by
  constructor
  · rintro ⟨args, c, e⟩
    obtain ⟨hp, hw, _⟩ := (C102_exact ..).mp e
    exact ⟨hp, hw⟩
  · rintro ⟨hp, hw⟩
    obtain ⟨args, e⟩ := C102_every debug hp hw .viewAll trivial
    exact ⟨args, _, e⟩

/-- An argument that asks for help: the word, the option, or the letter among options. -/
def AsksHelp (a : List Char) : Prop :=
  a = "help".toList ∨ a = "--help".toList ∨ ∃ l, a = '-' :: l ∧ l.head? ≠ some '-' ∧ 'h' ∈ l

/-- An argument that asks for the version. -/
def AsksVersion (a : List Char) : Prop := a = "--version".toList ∨ ∃ l, a = '-' :: l ∧ l.head? ≠ some '-' ∧ 'V' ∈ l

namespace Args

/-- What `e` must have been asked for by. -/
def Asks (e : Stop) (a : List Char) : Prop :=
  match e with
  | .help => AsksHelp a
  | .version => AsksVersion a
  | .usage => True

theorem shorts_error {types version : Bool} {l : List Char} {seen : Bool} {e : Stop} (h : shorts types version l seen = .error e) :
    match e with
    | .help => 'h' ∈ l
    | .version => 'V' ∈ l
    | .usage => True := by
  induction l generalizing seen with
  | nil => cases h
  | cons c cs ih =>
    rw [shorts] at h
    split at h
    · rename_i hc; cases h; subst hc; simp
    · split at h
      · rename_i hc; cases h; obtain ⟨rfl, _⟩ := hc; simp
      · split at h
        · have := ih h
          cases e
          · exact List.mem_cons_of_mem _ this
          · exact List.mem_cons_of_mem _ this
          · trivial
        · cases h; trivial

theorem shorts_asks {types version : Bool} {x : Char} {l : List Char} {seen : Bool} {e : Stop} (hx : x ≠ '-')
    (h : shorts types version (x :: l) seen = .error e) : Asks e ('-' :: x :: l) := by
  have := shorts_error h
  cases e
  · exact .inr (.inr ⟨_, rfl, by simpa using hx, this⟩)
  · exact .inr ⟨_, rfl, by simpa using hx, this⟩
  · trivial

theorem long_asks {types version : Bool} {l : List Char} {seen : Bool} {e : Stop}
    (h : long types version l seen = .error e) : Asks e ('-' :: '-' :: l) := by
  unfold long at h
  split at h
  · rename_i hl; cases h; subst hl; exact .inr (.inl (by decide))
  · split at h
    · rename_i hl; cases h; obtain ⟨rfl, _⟩ := hl; exact .inl (by decide)
    · split at h
      · cases h
      · cases h; trivial

theorem leaf_option_eq (c : Sub) (s : Seen) {a : List Char} (ha : IsOption a) (as : List (List Char)) :
    ∃ o : Except Stop Bool, (∀ e, o = .error e → Asks e a) ∧ leaf c false s (a :: as) =
      match o with
      | .ok t => leaf c false { s with types := t } as
      | .error e => .error e := by
  obtain ⟨hne, x, l, rfl⟩ := ha
  by_cases hx : x = '-'
  · subst hx
    have hl : l ≠ [] := by rintro rfl; exact hne rfl
    refine ⟨long c.takesTypes false l s.types, fun e h => long_asks h, ?_⟩
    rw [leaf]
    · rfl
    · exact fun h => hl h
  · refine ⟨shorts c.takesTypes false (x :: l) s.types, fun e h => shorts_asks hx h, ?_⟩
    rw [leaf]
    · rfl
    · exact fun h _ => hx h
    · exact fun h => hx h

theorem leaf_asks {c : Sub} {b : Bool} {s : Seen} {as : List (List Char)} {e : Stop} (he : e ≠ .usage)
    (h : leaf c b s as = .error e) : ∃ a ∈ as, Asks e a := by
  induction as generalizing b s with
  | nil => rw [leaf] at h; cases h
  | cons a as ih =>
    have later {b : Bool} {s : Seen} (h : leaf c b s as = .error e) : ∃ a' ∈ a :: as, Asks e a' := by
      obtain ⟨a', h1, h2⟩ := ih h
      exact ⟨a', List.mem_cons_of_mem _ h1, h2⟩
    cases b with
    | true =>
      rw [leaf] at h
      split at h
      · exact later h
      · cases h; exact (he rfl).elim
    | false =>
      rcases arg_kinds a with rfl | ha | ha
      · rw [leaf_end] at h
        exact later h
      · obtain ⟨o, h1, h2⟩ := leaf_option_eq c s ha as
        rw [h2] at h
        cases o with
        | ok t => exact later h
        | error x => cases h; exact ⟨a, by simp, h1 _ rfl⟩
      · rw [leaf_plain c s ha] at h
        split at h
        · exact later h
        · cases h; exact (he rfl).elim

theorem top_option_error {debug : Bool} {host : Option (List Char)} {a : List Char} (hw : a ∉ commandWords debug)
    (ha : IsOption a) {as : List (List Char)} {e : Stop} (h : top debug host (a :: as) = .error e) : Asks e a := by
  obtain ⟨h1, h2⟩ := findSub_none.mpr hw
  obtain ⟨hne, x, l, rfl⟩ := ha
  rw [top.eq_def] at h
  simp only [if_neg h1, h2] at h
  by_cases hx : x = '-'
  · subst hx
    cases l with
    | nil => exact (hne rfl).elim
    | cons y l =>
      simp only at h
      cases e' : long false true (y :: l) false with
      | error x => rw [e'] at h; cases h; exact long_asks e'
      | ok t => exact (long_top _ _ e').elim
  · split at h
    · rename_i e; cases e; exact (hx rfl).elim
    · rename_i e; cases e; exact (hx rfl).elim
    · rename_i e
      cases e
      cases e' : shorts false true (x :: l) false with
      | error x => rw [e'] at h; cases h; exact shorts_asks hx e'
      | ok t => exact (shorts_top _ _ _ e').elim
    · rename_i h' ; exact (h' _ _ rfl).elim

theorem top_asks {debug : Bool} {host : Option (List Char)} {as : List (List Char)} {e : Stop} (he : e ≠ .usage)
    (h : top debug host as = .error e) : ∃ a ∈ as, Asks e a := by
  induction as generalizing host with
  | nil => rw [top] at h; cases h; exact (he rfl).elim
  | cons a as ih =>
    by_cases hw : a ∈ commandWords debug
    · by_cases hh : a = "help".toList
      · rw [top.eq_def] at h
        simp only [if_pos hh] at h
        have hv : e = .help := by
          unfold helpOf at h
          split at h
          · cases h; rfl
          · split at h
            · cases h; rfl
            · cases h; exact (he rfl).elim
          · cases h; exact (he rfl).elim
        subst hv
        exact ⟨a, by simp, .inl hh⟩
      · cases hc : findSub debug a with
        | none => exact absurd hw (findSub_none.mp ⟨hh, hc⟩)
        | some c =>
          rw [top_sub hh hc] at h
          cases hl : leaf c false {} as with
          | error x =>
            rw [hl] at h
            cases h
            obtain ⟨a', h1, h2⟩ := leaf_asks he hl
            exact ⟨a', List.mem_cons_of_mem _ h1, h2⟩
          | ok s =>
            rw [hl] at h
            have hu : ∀ x, toCommand c s = .error x → x = .usage := by
              intro x hx
              unfold toCommand at hx
              split at hx <;> cases hx <;> rfl
            cases hk : toCommand c s with
            | error x => simp only [hk] at h; cases h; exact (he (hu _ hk)).elim
            | ok k =>
              cases host with
              | none => simp only [hk] at h; cases h; exact (he rfl).elim
              | some x => simp [hk] at h
    · rcases arg_kinds a with rfl | ha | ha
      · obtain ⟨h1, h2⟩ := findSub_none.mpr hw
        rw [top.eq_def] at h
        simp only [if_neg h1, h2] at h
        cases h
        exact (he rfl).elim
      · exact ⟨a, by simp, top_option_error hw ha h⟩
      · rw [top_plain ha hw] at h
        split at h
        · obtain ⟨a', h1, h2⟩ := ih h
          exact ⟨a', List.mem_cons_of_mem _ h1, h2⟩
        · cases h; exact (he rfl).elim

end Args

/-- **C102**: help is shown only to those who ask for it, and likewise the version; every other command line that is not
understood is refused. -/
theorem C102_asked {debug : Bool} {args : List (List Char)} {e : Args.Stop} (h : parse debug args = .error e) :
    (e = .help ∧ ∃ a ∈ args, AsksHelp a) ∨ (e = .version ∧ ∃ a ∈ args, AsksVersion a) ∨ e = .usage := by
  cases e with
  | help => exact .inl ⟨rfl, top_asks (by simp) h⟩
  | version => exact .inr (.inl ⟨rfl, top_asks (by simp) h⟩)
  | usage => exact .inr (.inr rfl)

/-- **C102**: and whoever begins with that, or asks for it behind the host or the command, gets it. -/
theorem C102_help (debug : Bool) {host : List Char} (hp : PlainArg host) (hw : host ∉ commandWords debug) {a name : List Char}
    (ha : a = "--help".toList ∨ a = "-h".toList) {c : Sub} (hc : findSub debug name = some c) (hn : name ≠ "help".toList)
    (rest : List (List Char)) :
    parse debug (a :: rest) = .error .help ∧ parse debug (host :: a :: rest) = .error .help ∧
    parse debug (host :: name :: a :: rest) = .error .help := by
  have hw' : a ∉ commandWords debug := by
    rcases ha with rfl | rfl <;> cases debug <;> decide
  obtain ⟨h1, h2⟩ := findSub_none.mpr hw'
  have key (h : Option (List Char)) : top debug h (a :: rest) = .error .help := by
    rw [top.eq_def]
    simp only [if_neg h1, h2]
    rcases ha with rfl | rfl
    · rw [show "--help".toList = ['-', '-', 'h', 'e', 'l', 'p'] by decide]
      simp only
      rw [show long false true ['h', 'e', 'l', 'p'] false = .error .help from rfl]
    · rw [show "-h".toList = ['-', 'h'] by decide]
      simp [shorts]
  refine ⟨key _, ?_, ?_⟩
  · unfold parse
    rw [top_plain hp hw, if_pos rfl, key]
  · unfold parse
    rw [top_plain hp hw, if_pos rfl, top_sub hn hc]
    have : leaf c false {} (a :: rest) = .error .help := by
      rcases ha with rfl | rfl
      · rw [show "--help".toList = ['-', '-', 'h', 'e', 'l', 'p'] by decide, leaf]
        · unfold long; rw [if_pos (by decide)]
        · simp
      · rw [show "-h".toList = ['-', 'h'] by decide, leaf]
        · simp [shorts]
        · simp
        · simp
    rw [this]

/-- **C102**: the word `help` shows help alone or with one command behind it, with or without a host before it. -/
theorem C102_help_word (debug : Bool) (rest : List (List Char)) :
    (parse debug ("help".toList :: rest) = .error .help ↔ rest = [] ∨ ∃ a ∈ commandWords debug, rest = [a]) ∧
    ∀ host, PlainArg host → host ∉ commandWords debug →
      parse debug (host :: "help".toList :: rest) = parse debug ("help".toList :: rest) := by
  have key (h : Option (List Char)) : top debug h ("help".toList :: rest) = .error (helpOf debug rest) := by
    rw [top.eq_def]
    simp only [if_true]
  have word (a : List Char) : (a = "help".toList ∨ (findSub debug a).isSome) ↔ a ∈ commandWords debug := by
    have := findSub_none (debug := debug) (a := a)
    rw [← Decidable.not_iff_not, ← this, not_or, Bool.not_eq_true, Option.isSome_eq_false_iff, Option.isNone_iff_eq_none]
  refine ⟨?_, fun host hp hw => ?_⟩
  · unfold parse
    rw [key]
    match rest with
    | [] => simp [helpOf]
    | [a] =>
      simp only [helpOf, word]
      split
      · rename_i h; simpa using h
      · rename_i h; simpa using h
    | _ :: _ :: _ => simp [helpOf]
  · unfold parse
    rw [top_plain hp hw, if_pos rfl, key, key]

namespace Args

theorem leaf_version (c : Sub) (b : Bool) (s : Seen) (as : List (List Char)) : leaf c b s as ≠ .error .version := by
  have hs (types : Bool) (l : List Char) (seen : Bool) : shorts types false l seen ≠ .error .version := by
    induction l generalizing seen with
    | nil => simp [shorts]
    | cons x l ih =>
      rw [shorts]
      simp only [Bool.false_eq_true, and_false, if_false]
      split
      · simp
      · split
        · exact ih _
        · simp
  have hl (types : Bool) (l : List Char) (seen : Bool) : long types false l seen ≠ .error .version := by
    unfold long
    simp only [Bool.false_eq_true, and_false, if_false]
    split
    · simp
    · split <;> simp
  fun_induction leaf c b s as with
  | case1 => simp
  | case2 _ _ _ _ ih => exact ih
  | case3 => simp
  | case4 _ _ ih => exact ih
  | case5 _ _ _ _ _ _ ih => exact ih
  | case6 _ _ _ _ e he => intro h; cases h; exact hl _ _ _ he
  | case7 _ _ _ _ _ _ _ _ ih => exact ih
  | case8 => rename_i he; intro h; cases h; exact hs _ _ _ he
  | case9 => assumption
  | case10 => simp

end Args

/-- **C102**: the version is shown only if it is asked for first or right behind the host. -/
theorem C102_version {debug : Bool} {args : List (List Char)} (h : parse debug args = .error .version) :
    (∃ a rest, args = a :: rest ∧ AsksVersion a) ∨
    ∃ host a rest, args = host :: a :: rest ∧ PlainArg host ∧ host ∉ commandWords debug ∧ AsksVersion a := by
  have one {host : Option (List Char)} {a : List Char} {as : List (List Char)} (h : top debug host (a :: as) = .error .version) :
      AsksVersion a ∨ (host = none ∧ PlainArg a ∧ a ∉ commandWords debug ∧ top debug (some a) as = .error .version) := by
    by_cases hw : a ∈ commandWords debug
    · by_cases hh : a = "help".toList
      · rw [top.eq_def] at h
        simp only [if_pos hh] at h
        unfold helpOf at h
        split at h
        · cases h
        · split at h <;> cases h
        · cases h
      · cases hc : findSub debug a with
        | none => exact absurd hw (findSub_none.mp ⟨hh, hc⟩)
        | some c =>
          rw [top_sub hh hc] at h
          cases hl : leaf c false {} as with
          | error x => rw [hl] at h; cases h; exact (leaf_version _ _ _ _ hl).elim
          | ok s =>
            rw [hl] at h
            have hu : ∀ x, toCommand c s = .error x → x = .usage := by
              intro x hx
              unfold toCommand at hx
              split at hx <;> cases hx <;> rfl
            cases hk : toCommand c s with
            | error x => simp only [hk] at h; cases h; cases hu _ hk
            | ok k =>
              cases host with
              | none => simp only [hk] at h; cases h
              | some x => simp [hk] at h
    · rcases arg_kinds a with rfl | ha | ha
      · obtain ⟨h1, h2⟩ := findSub_none.mpr hw
        rw [top.eq_def] at h
        simp only [if_neg h1, h2] at h
        cases h
      · exact .inl (top_option_error hw ha h)
      · rw [top_plain ha hw] at h
        split at h
        · rename_i hn; exact .inr ⟨hn, ha, hw, h⟩
        · cases h
  unfold parse at h
  cases args with
  | nil => rw [top] at h; cases h
  | cons a as =>
    rcases one h with h | ⟨_, hp, hw, h⟩
    · exact .inl ⟨a, as, rfl, h⟩
    · cases as with
      | nil => rw [top] at h; cases h
      | cons b as =>
        rcases one h with h | ⟨h, _⟩
        · exact .inr ⟨a, b, as, rfl, hp, hw, h⟩
        · cases h

-- command lines with a meaning, and one without
example : parse false ["localhost".toList, "create-new".toList, "films".toList] = .ok ("localhost".toList, .createNew "films".toList) :=
  (C102_exact ..).mpr ⟨.inr (by decide), by decide, _, rfl, .createNew (.plain (.inr (by decide)))⟩
example : parse true ["::1".toList, "export-to-json".toList, "-a".toList, "--".toList, "-x".toList] =
    .ok ("::1".toList, .exportToJson "-x".toList true) :=
  (C102_exact ..).mpr ⟨.inr (by decide), by decide, _, rfl, .exportTypes (.behind (by decide)) (by decide)⟩
example : parse true ["localhost".toList, "export-to-json".toList, "-aa".toList, "x".toList] = .error .usage := rfl
example : ¬ ∃ args c, parse true args = .ok ("view-all".toList, c) := by
  rw [C102_hosts]
  exact fun h => h.2 (by decide)
example : PlainArg "localhost".toList ∧ "localhost".toList ∉ commandWords true ∧ findSub true "view-all".toList = some .viewAll := by
  exact ⟨.inr (by decide), by decide, by decide⟩
example : parse true ["localhost".toList, "-V".toList] = .error .version := rfl

end Souris
