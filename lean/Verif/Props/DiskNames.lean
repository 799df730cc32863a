import Verif.Props.Disk
import Verif.Spec.DiskNames

/-! # C49 for every name -/

namespace Souris

open Path

theorem components_slash (c s : List Char) (h : '/' ∉ c) : components (c ++ '/' :: s) = c :: components s := by
  induction c with
  | nil => simp [components]
  | cons x c ih =>
    simp only [List.mem_cons, not_or] at h
    rw [List.cons_append, components, if_neg (Ne.symm h.1), ih h.2]

theorem components_pieces {s : List Char} {cs : List (List Char)} (h : Pieces s cs) : components s = cs := by
  obtain ⟨h0, h1, rfl⟩ := h
  induction cs with
  | nil => exact absurd rfl h0
  | cons c cs ih =>
    cases cs with
    | nil =>
      rw [List.intercalate_singleton]
      exact components_plain c (h1 c (by simp))
    | cons d cs =>
      rw [List.intercalate_cons_cons, List.append_assoc, List.singleton_append, components_slash _ _ (h1 c (by simp)),
        ih (by simp) fun c hc => h1 c (List.mem_cons_of_mem _ hc)]

/-- Every text has its parts. -/
theorem pieces_components (s : List Char) : Pieces s (components s) := by
  induction s with
  | nil => exact ⟨by simp [components], by simp [components], rfl⟩
  | cons x s ih =>
    obtain ⟨h0, h1, h2⟩ := ih
    rw [components]
    split
    · next hx =>
      refine ⟨by simp, by simpa using h1, ?_⟩
      cases hc : components s with
      | nil => exact absurd hc h0
      | cons c cs => rw [List.intercalate_cons_cons, ← hc, h2, hx]; rfl
    · next hx =>
      cases hc : components s with
      | nil => exact absurd hc h0
      | cons c cs =>
        rw [hc] at h1 h2
        refine ⟨by simp, fun d hd => ?_, ?_⟩
        · rcases List.mem_cons.mp hd with rfl | hd
          · simp only [List.mem_cons, not_or]
            exact ⟨Ne.symm hx, h1 c (by simp)⟩
          · exact h1 d (List.mem_cons_of_mem _ hd)
        · cases cs with
          | nil => rw [List.intercalate_singleton] at h2 ⊢; rw [h2]
          | cons d cs => rw [List.intercalate_cons_cons] at h2 ⊢; rw [← h2]; rfl

theorem walk_follow {fs : FS} {cur p : Path} {cs : List (List Char)} (h : walk fs cur cs = .ok p) : p = follow cur cs := by
  induction cs generalizing cur with
  | nil => cases h; rfl
  | cons c cs ih =>
    rw [walk] at h
    show p = follow (step cur c) cs
    unfold step
    split
    · next hc => rw [if_pos hc] at h; exact ih h
    · next hc =>
      rw [if_neg hc] at h
      split
      · next hd => rw [if_pos hd] at h; exact ih h
      · next hd =>
        rw [if_neg hd] at h
        split at h
        · exact ih h
        · cases h
        · cases h

/-- The last part of the name of a file. -/
theorem last_piece (n : List Char) : ∃ cs x, components (n ++ kSdb) = cs ++ [x ++ kSdb] := by
  have base : components kSdb = [kSdb] := by decide
  induction n with
  | nil => exact ⟨[], [], by rw [List.nil_append, base]; rfl⟩
  | cons c n ih =>
    obtain ⟨cs, x, e⟩ := ih
    rw [List.cons_append, components, e]
    split
    · exact ⟨[] :: cs, x, rfl⟩
    · cases cs with
      | nil => exact ⟨[], c :: x, rfl⟩
      | cons d cs => exact ⟨(c :: d) :: cs, x, rfl⟩

theorem step_last (cur : Path) (x : List Char) : step cur (x ++ kSdb) = cur ++ [x ++ kSdb] := by
  have hl : 4 ≤ (x ++ kSdb).length := by simp [kSdb]
  unfold step
  rw [if_neg, if_neg]
  · intro e; rw [e] at hl; simp at hl
  · rintro (e | e) <;> rw [e] at hl <;> simp at hl

theorem follow_last (cur : Path) (cs : List (List Char)) (x : List Char) :
    follow cur (cs ++ [x ++ kSdb]) = follow cur cs ++ [x ++ kSdb] := by
  unfold follow
  rw [List.foldl_append]
  exact step_last _ x

theorem target_follow {fs : FS} {base p : Path} {n : List Char} (h : target fs base n = .ok p) :
    p = follow (origin base n) (components (n ++ kSdb)) := by
  obtain ⟨cs, x, e⟩ := last_piece n
  unfold target at h
  rw [e] at h ⊢
  rw [follow_last]
  split at h
  · cases h
  · simp only [List.dropLast_concat, List.getLast?_append, List.getLast?_singleton, Option.some_or, Option.getD_some] at h
    unfold origin
    split
    · next hh =>
      rw [if_pos hh] at h
      split at h
      · next q hq => cases h; rw [walk_follow hq]
      · cases h
    · next hh =>
      rw [if_neg hh] at h
      split at h
      · split at h
        · next q hq => cases h; rw [walk_follow hq]
        · cases h
      · cases h
      · cases h

/-- C49 for every name: the only file that is deleted or written for a database is where its name leads, following the
parts between the slashes from the base directory, or from the root if the name begins with a slash; besides, the
directories that lead to the base directory may be made. Missing: that this is in the base directory
(`C49_exact_partial`). -/
theorem C49_touched_partial (fs : FS) (base : Path) (n : List Char) (cs : List (List Char))
    (hcs : Pieces (n ++ ".sdb".toList) cs) :
    (∀ p, (unlink fs base n).2 p ≠ fs p → p = follow (origin base n) cs) ∧
    (∀ f b p, (writeTo f fs base n b).1 p ≠ fs p → p = follow (origin base n) cs ∨ p <+: base) := by
  have hcs : components (n ++ kSdb) = cs := components_pieces hcs
  have ht : ∀ (fs : FS) p, target fs base n = .ok p → p = follow (origin base n) cs := by
    intro fs p h
    rw [← hcs]
    exact target_follow h
  have ho : ∀ (fs : FS) p, openCreate fs base n = .ok p → p = follow (origin base n) cs := by
    intro fs p h
    unfold openCreate at h
    split at h
    · cases h
    · next q hq =>
      have hq := ht fs q hq
      split at h
      · cases h
      · cases h; exact hq
  have hw : ∀ f (fs : FS) p b q, (writeBytes f fs p b).1 q ≠ fs q → q = p := by
    intro f fs p b q h
    by_contra hne
    apply h
    cases f <;> exact FS.set_ne _ _ hne
  refine ⟨?_, ?_⟩
  · intro p h
    unfold unlink at h
    split at h
    · exact absurd rfl h
    · exact absurd rfl h
    · next q hq =>
      split at h
      · exact absurd rfl h
      · exact absurd rfl h
      · by_contra hne
        apply h
        rw [ht fs q hq]
        exact FS.set_ne _ _ hne
  · intro f b p h
    unfold writeTo at h
    split at h
    · exact absurd rfl h
    · split at h
      · next q hq => exact .inl ((hw _ _ _ _ _ h).trans (ho fs q hq))
      · exact absurd rfl h
      · split at h
        · exact absurd rfl h
        · next fs1 hfs1 =>
          by_cases hpre : base.take p.length = p
          · exact .inr (List.prefix_iff_eq_take.mpr hpre.symm)
          · left
            have h1 : fs1 p = fs p := by
              unfold createDirAll at hfs1
              split at hfs1
              · cases hfs1
              · cases hfs1; exact if_neg hpre
            rw [← h1] at h
            split at h
            · next q hq => exact (hw _ _ _ _ _ h).trans (ho fs1 q hq)
            · exact absurd rfl h

/-! ## Names that lead outside -/

/-- Everything is a directory, but there is nothing at or below `w`. -/
def without (w : Path) : FS := fun p => if w <+: p then none else some .dir

theorem without_dir {w p : Path} (h : ¬ w <+: p) : without w p = some .dir := if_neg h

/-- One does not get below a place without passing it. -/
theorem step_below {w cur : Path} {c : List Char} (h : ¬ w <+: cur) (hne : step cur c ≠ w) : ¬ w <+: step cur c := by
  unfold step at *
  split
  · exact h
  · next hc =>
    rw [if_neg hc] at hne
    split
    · exact fun h' => h (h'.trans (List.dropLast_prefix _))
    · next hd =>
      rw [if_neg hd] at hne
      intro h'
      rcases List.prefix_concat_iff.mp h' with e | e
      · exact hne e.symm
      · exact h e

theorem walk_without {w cur : Path} {cs : List (List Char)} (h : ¬ w <+: cur)
    (hne : ∀ l r, cs = l ++ r → follow cur l ≠ w) : walk (without w) cur cs = .ok (follow cur cs) := by
  induction cs generalizing cur with
  | nil => rfl
  | cons c cs ih =>
    have h1 := step_below h (hne [c] cs rfl)
    have h2 := ih h1 fun l r e => hne (c :: l) r (by rw [e]; rfl)
    show walk (without w) cur (c :: cs) = .ok (follow (step cur c) cs)
    rw [← h2, walk]
    unfold step at h1 ⊢
    split
    · rfl
    · next hc =>
      rw [if_neg hc] at h1
      split
      · rfl
      · next hd =>
        rw [if_neg hd] at h1
        rw [without_dir h1]

/-- Who passes a place coming from elsewhere finds a directory there. -/
theorem walk_passes {fs : FS} {w cur q : Path} {cs l r : List (List Char)} (h : walk fs cur cs = .ok q) (hb : ¬ w <+: cur)
    (e : cs = l ++ r) (hf : follow cur l = w) : fs w = some .dir := by
  induction l generalizing cur cs with
  | nil => exact absurd (by rw [← hf]; exact List.prefix_refl cur) hb
  | cons c l ih =>
    subst e
    rw [List.cons_append, walk] at h
    have hf : follow (step cur c) l = w := hf
    by_cases hc : c = [] ∨ c = ['.']
    · rw [if_pos hc] at h
      unfold step at hf
      rw [if_pos hc] at hf
      exact ih h hb rfl hf
    · rw [if_neg hc] at h
      unfold step at hf
      rw [if_neg hc] at hf
      by_cases hd : c = ['.', '.']
      · rw [if_pos hd] at h hf
        exact ih h (fun h' => hb (h'.trans (List.dropLast_prefix _))) rfl hf
      · rw [if_neg hd] at h hf
        split at h
        · next hdir =>
          by_cases hw : cur ++ [c] = w
          · rw [← hw]; exact hdir
          · refine ih h (fun h' => ?_) rfl hf
            rcases List.prefix_concat_iff.mp h' with e | e
            · exact hw e.symm
            · exact hb e
        · cases h
        · cases h

/-- C49, exactly: a name without zero characters keeps every write in the base directory, whatever is on the disk, if and
only if it leads there, or leads nowhere because the file would have to be a directory on the way to itself. -/
theorem C49_exact_partial (base : Path) (n : List Char) (cs : List (List Char)) (hcs : Pieces (n ++ ".sdb".toList) cs)
    (h0 : Char.ofNat 0 ∉ n) :
    (∀ (fs : FS) f b p, (writeTo f fs base n b).1 p ≠ fs p → Inside base p) ↔
      Inside base (follow (origin base n) cs) ∨
        ∃ l r, cs = l ++ r ∧ r ≠ [] ∧ follow (origin base n) l = follow (origin base n) cs := by
  constructor
  · intro h
    by_contra hc
    rw [not_or] at hc
    obtain ⟨hin, hpass⟩ := hc
    have hcomp : components (n ++ kSdb) = cs := components_pieces hcs
    obtain ⟨ds, x, e⟩ := last_piece n
    rw [hcomp] at e
    generalize hw : follow (origin base n) cs = w at hin hpass
    have hwe : w = follow (origin base n) ds ++ [x ++ kSdb] := by rw [← hw, e, follow_last]
    have hbase : ¬ w <+: base := fun h => hin (.inr h)
    have hstart : ¬ w <+: origin base n := by
      unfold origin
      split
      · intro h'
        have := List.prefix_nil.mp h'
        rw [hwe] at this
        simp at this
      · exact hbase
    have hwalk : walk (without w) (origin base n) ds = .ok (follow (origin base n) ds) :=
      walk_without hstart fun l r er ef => hpass ⟨l, r ++ [x ++ kSdb], by rw [e, er, List.append_assoc], by simp, ef⟩
    have htarget : target (without w) base n = .ok w := by
      unfold target
      rw [if_neg h0, hcomp, e]
      simp only [List.dropLast_concat, List.getLast?_append, List.getLast?_singleton, Option.some_or, Option.getD_some]
      unfold origin at hwalk hwe
      split
      · next hh => rw [if_pos hh] at hwalk hwe; rw [hwalk]; simp only; rw [hwe]
      · next hh => rw [if_neg hh] at hwalk hwe; rw [without_dir hbase]; simp only; rw [hwalk]; simp only; rw [hwe]
    have hnone : without w w = none := if_pos (List.prefix_refl w)
    refine hin (h (without w) .none [] w ?_)
    unfold writeTo openCreate
    rw [if_neg (by decide), htarget]
    simp only [hnone]
    unfold writeBytes FS.set
    simp
  · rintro (hin | ⟨l, r, e, hr, hf⟩) fs f b p hp
    · rcases (C49_touched_partial fs base n cs hcs).2 f b p hp with rfl | h
      · exact hin
      · exact .inr h
    · by_cases hin : Inside base (follow (origin base n) cs)
      · rcases (C49_touched_partial fs base n cs hcs).2 f b p hp with rfl | h
        · exact hin
        · exact .inr h
      have hcomp : components (n ++ kSdb) = cs := components_pieces hcs
      obtain ⟨ds, x, e'⟩ := last_piece n
      rw [hcomp] at e'
      have hbase : ¬ follow (origin base n) cs <+: base := fun h => hin (.inr h)
      have hwe : follow (origin base n) cs = follow (origin base n) ds ++ [x ++ kSdb] := by rw [e', follow_last]
      have hstart : ¬ follow (origin base n) cs <+: origin base n := by
        by_cases hh : n.head? = some '/'
        · have : origin base n = [] := if_pos hh
          rw [this] at hwe ⊢
          intro h'
          have := List.prefix_nil.mp h'
          rw [hwe] at this
          simp at this
        · have : origin base n = base := if_neg hh
          rw [this] at hbase ⊢
          exact hbase
      obtain ⟨r', hr'⟩ : ∃ r', ds = l ++ r' := by
        have := e'.symm.trans e
        rcases List.eq_nil_or_concat r with rfl | ⟨r', y, rfl⟩
        · exact absurd rfl hr
        · rw [List.concat_eq_append, ← List.append_assoc] at this
          exact ⟨r', (List.append_inj' this rfl).1⟩
      have blocked : ∀ (fs : FS) q, target fs base n = .ok q → fs q = some .dir := by
        intro fs q hq
        have hqe := target_follow hq
        rw [hcomp] at hqe
        rw [hqe]
        unfold target at hq
        rw [if_neg h0, hcomp, e'] at hq
        simp only [List.dropLast_concat, List.getLast?_append, List.getLast?_singleton, Option.some_or, Option.getD_some] at hq
        have : ∃ q', walk fs (origin base n) ds = .ok q' := by
          unfold origin
          split at hq
          · next hh =>
            rw [if_pos hh]
            split at hq
            · next q' hw => exact ⟨q', hw⟩
            · cases hq
          · next hh =>
            rw [if_neg hh]
            split at hq
            · split at hq
              · next q' hw => exact ⟨q', hw⟩
              · cases hq
            · cases hq
            · cases hq
        obtain ⟨q', hw⟩ := this
        exact walk_passes hw hstart hr' hf
      have never : ∀ (fs : FS) q, openCreate fs base n ≠ .ok q := by
        intro fs q hq
        unfold openCreate at hq
        split at hq
        · cases hq
        · next q' hq' => rw [blocked fs q' hq'] at hq; cases hq
      unfold writeTo at hp
      split at hp
      · exact absurd rfl hp
      · split at hp
        · next q hq => exact absurd hq (never fs q)
        · exact absurd rfl hp
        · split at hp
          · exact absurd rfl hp
          · next fs1 hfs1 =>
            split at hp
            · next q hq => exact absurd hq (never fs1 q)
            · right
              by_contra hpre
              apply hp
              unfold createDirAll at hfs1
              split at hfs1
              · cases hfs1
              · cases hfs1
                exact if_neg fun h => hpre (List.prefix_iff_eq_take.mpr h.symm)

/-- `a/../b` leads to the base directory, `a/../../b` does not. -/
example : Pieces ("a/../b".toList ++ ".sdb".toList) ["a".toList, "..".toList, "b.sdb".toList] ∧
    Inside ["data".toList] (follow (origin ["data".toList] "a/../b".toList) ["a".toList, "..".toList, "b.sdb".toList]) ∧
    ¬ Inside ["data".toList] (follow (origin ["data".toList] "a/../../b".toList)
      ["a".toList, "..".toList, "..".toList, "b.sdb".toList]) := by
  refine ⟨?_, ?_, ?_⟩
  · have := pieces_components ("a/../b".toList ++ ".sdb".toList)
    have e : components ("a/../b".toList ++ ".sdb".toList) = ["a".toList, "..".toList, "b.sdb".toList] := by decide +kernel
    rwa [e] at this
  · exact .inl ⟨"b.sdb".toList, by decide +kernel⟩
  · rintro (⟨f, h⟩ | h)
    · have := congrArg List.length h
      revert this
      rw [List.length_append, List.length_singleton, List.length_singleton]
      decide +kernel
    · have := List.prefix_iff_eq_take.mp h
      revert this
      decide +kernel

end Souris
