import Verif.Lemmas.Store
import Verif.Spec.JsonText

/-! # Collecting the members of an object -/

namespace Souris

theorem insert_mem_iff {k : List Char} {v : SJValue} {m : List (List Char × SJValue)}
    (h : m.Pairwise fun x y => x.1 < y.1) (x : List Char × SJValue) :
    x ∈ SJValue.insert k v m ↔ x = (k, v) ∨ (x ∈ m ∧ x.1 ≠ k) := by
  induction m with
  | nil => simp [SJValue.insert]
  | cons y ys ih =>
    obtain ⟨k', v'⟩ := y
    rw [List.pairwise_cons] at h
    obtain ⟨h1, h2⟩ := h
    simp only [SJValue.insert]
    split_ifs with e1 e2
    · subst e1
      simp only [List.mem_cons]
      constructor
      · rintro (h | h)
        · exact .inl h
        · refine .inr ⟨.inr h, fun e => ?_⟩
          have := h1 x h
          rw [e] at this
          exact List.lt_irrefl _ this
      · rintro (h | ⟨h | h, hne⟩)
        · exact .inl h
        · exact absurd (by rw [h]) hne
        · exact .inr h
    · rw [keyLt_iff] at e2
      rw [List.mem_cons]
      constructor
      · rintro (h | h)
        · exact .inl h
        · refine .inr ⟨h, fun e => ?_⟩
          rcases List.mem_cons.mp h with rfl | h
          · exact e1 e.symm
          · have := List.lt_trans e2 (h1 x h)
            rw [e] at this
            exact List.lt_irrefl _ this
      · rintro (h | ⟨h, -⟩)
        · exact .inl h
        · exact .inr h
    · rw [List.mem_cons, ih h2, List.mem_cons]
      constructor
      · rintro (rfl | h | ⟨h, hne⟩)
        · exact .inr ⟨.inl rfl, fun e => e1 e.symm⟩
        · exact .inl h
        · exact .inr ⟨.inr h, hne⟩
      · rintro (h | ⟨h | h, hne⟩)
        · exact .inr (.inl h)
        · exact .inl h
        · exact .inr (.inr ⟨h, hne⟩)

theorem sorted_iff {m : List (List Char × SJValue)} :
    m.Pairwise (fun a b => SJValue.keyLt a.1 b.1 = true) ↔ m.Pairwise fun x y => x.1 < y.1 := by
  constructor
  · exact fun h => h.imp fun h => (keyLt_iff _ _).mp h
  · exact fun h => h.imp fun h => (keyLt_iff _ _).mpr h

/-- Members collected one by one are the map of them. -/
theorem gathered_collect (es : List (List Char × SJValue)) : Gathered es (SJValue.collect es) := by
  refine ⟨sorted_iff.mpr (collect_sorted es), ?_⟩
  induction es using List.reverseRecOn with
  | nil =>
    intro k v
    simp [SJValue.collect]
  | append_singleton es e ih =>
    intro k v
    have hstep : SJValue.collect (es ++ [e]) = SJValue.insert e.1 e.2 (SJValue.collect es) := by
      simp [SJValue.collect, List.foldl_append]
    rw [hstep, insert_mem_iff (collect_sorted es), ih]
    constructor
    · rintro (h | ⟨⟨front, back, rfl, hb⟩, hne⟩)
      · exact ⟨es, [], by rw [h], by simp⟩
      · refine ⟨front, back ++ [e], by simp, fun v' hv' => ?_⟩
        rcases List.mem_append.mp hv' with h | h
        · exact hb v' h
        · simp only [List.mem_singleton] at h
          subst h
          exact hne rfl
    · rintro ⟨front, back, he, hb⟩
      rcases List.eq_nil_or_concat back with rfl | ⟨back', x, rfl⟩
      · have := List.append_inj' he rfl
        simp only [List.cons.injEq, and_true] at this
        exact .inl this.2.symm
      · rw [List.concat_eq_append, ← List.cons_append, ← List.append_assoc] at he
        have := List.append_inj' he rfl
        simp only [List.cons.injEq, and_true] at this
        obtain ⟨h1, rfl⟩ := this
        refine .inr ⟨⟨front, back', h1, fun v' hv' => hb v' (by simp [hv'])⟩, fun hk => ?_⟩
        refine hb e.2 ?_
        simp only [List.concat_eq_append, List.mem_append, List.mem_singleton]
        exact .inr (Prod.ext hk rfl)

theorem gathered_unique {es m m' : List (List Char × SJValue)} (h : Gathered es m) (h' : Gathered es m') : m = m' := by
  have hs := sorted_iff.mp h.1
  have hs' := sorted_iff.mp h'.1
  have nodup : ∀ l : List (List Char × SJValue), l.Pairwise (fun x y => x.1 < y.1) → l.Nodup := by
    intro l hl
    rw [List.nodup_iff_pairwise_ne]
    refine hl.imp ?_
    intro a b h e
    rw [e] at h
    exact List.lt_irrefl _ h
  refine List.Perm.eq_of_pairwise ?_ hs hs' ?_
  · intro a b _ _ h1 h2
    exact absurd (List.lt_trans h1 h2) (List.lt_irrefl _)
  · rw [List.perm_ext_iff_of_nodup (nodup m hs) (nodup m' hs')]
    intro x
    rw [show x = (x.1, x.2) from rfl, h.2, h'.2]

theorem gathered_eq {es m : List (List Char × SJValue)} (h : Gathered es m) : SJValue.collect es = m :=
  gathered_unique (gathered_collect es) h

end Souris
