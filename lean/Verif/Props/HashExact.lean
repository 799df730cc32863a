import Verif.Props.JsonDifferent

/-! # C29: which values hash like every value that equals them -/

namespace Souris

open Value

/-- All JSON in the value is as serde_json can make it. -/
def Value.JsonMade (v : Value) : Prop := ∀ j, Sub (.json j) v → j.Made fun _ => True

/-- Every value that equals this one feeds the same data to the hasher. -/
def Value.HashesAlike (env : Env) (v : Value) : Prop :=
  ∀ w, Live w → w.JsonMade → v.eq w = true → hashItems env v = hashItems env w

/-! ## Zeros -/

theorem other_zero64 {x : UInt64} (h : IsZero64 x) : ∃ y, IsZero64 y ∧ y ≠ x := by
  rcases h with h | h
  · exact ⟨0x8000000000000000, .inr (by decide), fun e => by rw [← e] at h; exact absurd h (by decide)⟩
  · exact ⟨0, .inl (by decide), fun e => by rw [← e] at h; exact absurd h (by decide)⟩

theorem other_zero32 {x : UInt32} (h : IsZero32 x) : ∃ y, IsZero32 y ∧ y ≠ x := by
  rcases h with h | h
  · exact ⟨0x80000000, .inr (by decide), fun e => by rw [← e] at h; exact absurd h (by decide)⟩
  · exact ⟨0, .inl (by decide), fun e => by rw [← e] at h; exact absurd h (by decide)⟩

theorem zeros_eq64 {x y : UInt64} (hx : IsZero64 x) (hy : IsZero64 y) : f64Format.ieeeEq x.toNat y.toNat = true := by
  rcases hx with hx | hx <;> rcases hy with hy | hy <;> rw [hx, hy] <;> decide +kernel

theorem zeros_eq32 {x y : UInt32} (hx : IsZero32 x) (hy : IsZero32 y) : f32Format.ieeeEq x.toNat y.toNat = true := by
  rcases hx with hx | hx <;> rcases hy with hy | hy <;> rw [hx, hy] <;> decide +kernel

theorem leBytes64_inj {x y : UInt64} (h : leBytes 8 x.toNat = leBytes 8 y.toNat) : x = y := by
  have := congrArg ofLe h
  rw [ofLe_leBytes, ofLe_leBytes] at this
  have h1 := x.toNat_lt
  have h2 := y.toNat_lt
  exact UInt64.toNat_inj.mp (by omega)

theorem leBytes32_inj {x y : UInt32} (h : leBytes 4 x.toNat = leBytes 4 y.toNat) : x = y := by
  have := congrArg ofLe h
  rw [ofLe_leBytes, ofLe_leBytes] at this
  have h1 := x.toNat_lt
  have h2 := y.toNat_lt
  exact UInt32.toNat_inj.mp (by omega)

theorem zero_finite {x : UInt64} (h : IsZero64 x) : F64Finite x := by
  unfold F64Finite
  rcases h with h | h <;> rw [h] <;> decide

/-- JSON with a float zero equals other JSON. -/
theorem json_other {j : SJValue} {x : UInt64} (hx : IsZero64 x) (hs : SJValue.Sub (.number (.float x)) j)
    (hj : j.Made fun _ => True) : ∃ k, k.Made (fun _ => True) ∧ j.eq k = true ∧ j ≠ k := by
  generalize e : SJValue.number (.float x) = s at hs
  induction hs with
  | refl j =>
    subst e
    obtain ⟨y, hy, hne⟩ := other_zero64 hx
    refine ⟨.number (.float y), .float (zero_finite hy) trivial, (SJValue.eq_number _ _).mpr ?_, fun e => ?_⟩
    · refine .inr ⟨x, y, rfl, rfl, ?_, ?_⟩
      · rcases hx with h | h <;> rw [h] <;> decide
      · rcases hy with h | h <;> rw [h] <;> decide
    · simp only [SJValue.number.injEq, SJNumber.float.injEq] at e
      exact hne e.symm
  | @array a w v hv _ ih =>
    cases hj with
    | array hall =>
      obtain ⟨k, hk, he, hne⟩ := ih (hall v hv) e
      obtain ⟨l, r, rfl⟩ := List.append_of_mem hv
      refine ⟨.array (l ++ k :: r), .array fun i hi => ?_, ?_, fun h => ?_⟩
      · simp only [List.mem_append, List.mem_cons] at hi
        rcases hi with hi | rfl | hi
        · exact hall i (by simp [hi])
        · exact hk
        · exact hall i (by simp [hi])
      · simp only [SJValue.eq]
        clear hall hv ih
        induction l with
        | nil =>
          simp only [List.nil_append, SJValue.eqList, he, Bool.true_and]
          exact SJValue.eqList_refl fun v _ => SJValue.eq_refl v
        | cons y l ih => simp only [List.cons_append, SJValue.eqList, SJValue.eq_refl, ih, Bool.and_self]
      · simp only [SJValue.array.injEq, List.append_cancel_left_eq, List.cons.injEq, and_true] at h
        exact hne h
  | @object m key w v hv _ ih =>
    cases hj with
    | object ho hall =>
      obtain ⟨k, hk, he, hne⟩ := ih (hall key v hv) e
      obtain ⟨l, r, rfl⟩ := List.append_of_mem hv
      refine ⟨.object (l ++ (key, k) :: r), .object ?_ fun i j hi => ?_, ?_, fun h => ?_⟩
      · rw [← List.pairwise_map (f := Prod.fst) (R := fun a b => SJValue.keyLt a b = true)] at ho ⊢
        simpa using ho
      · simp only [List.mem_append, List.mem_cons, Prod.mk.injEq] at hi
        rcases hi with hi | ⟨rfl, rfl⟩ | hi
        · exact hall i j (by simp [hi])
        · exact hk
        · exact hall i j (by simp [hi])
      · simp only [SJValue.eq]
        clear hall hv ih ho
        induction l with
        | nil =>
          simp only [List.nil_append, SJValue.eqEntries, he, decide_true, Bool.true_and]
          exact SJValue.eqEntries_refl fun _ v _ => SJValue.eq_refl v
        | cons y l ih =>
          obtain ⟨a, b⟩ := y
          simp only [List.cons_append, SJValue.eqEntries, SJValue.eq_refl, ih, decide_true, Bool.and_self]
      · simp only [SJValue.object.injEq, List.append_cancel_left_eq, List.cons.injEq, Prod.mk.injEq, true_and, and_true] at h
        exact hne h

/-! ## Contexts -/

theorem sub_trans {u v w : Value} (h : Sub u v) (h' : Sub v w) : Sub u w := by
  induction h' with
  | refl => exact h
  | array hv _ ih => exact .array hv (ih h)
  | map hv _ ih => exact .map hv (ih h)

theorem live_array {a : List Value} (h : ∀ v ∈ a, Live v) : Live (.array a) := by
  refine ⟨fun i hs => ?_, fun i hs => ?_, fun i hs => ?_⟩
  · cases hs with | array hv hs => exact (h _ hv).1 i hs
  · cases hs with | array hv hs => exact (h _ hv).2.1 i hs
  · cases hs with | array hv hs => exact (h _ hv).2.2 i hs

theorem live_map {m : List (List Char × Value)} (hn : (m.map Prod.fst).Nodup) (h : ∀ k v, (k, v) ∈ m → Live v) :
    Live (.map m) := by
  refine ⟨fun i hs => ?_, fun i hs => ?_, fun i hs => ?_⟩
  · cases hs with | map hv hs => exact (h _ _ hv).1 i hs
  · cases hs with | map hv hs => exact (h _ _ hv).2.1 i hs
  · cases hs with
    | refl => exact hn
    | map hv hs => exact (h _ _ hv).2.2 i hs

theorem hashList_append (env : Env) (a b : List Value) : hashList env (a ++ b) = hashList env a ++ hashList env b := by
  induction a with
  | nil => simp [hashList]
  | cons x a ih => simp [hashList, ih]

theorem hashValues_append (env : Env) (a b : List (List Char × Value)) :
    hashValues env (a ++ b) = hashValues env a ++ hashValues env b := by
  induction a with
  | nil => simp [hashValues]
  | cons x a ih => obtain ⟨k, v⟩ := x; simp [hashValues, ih]

/-- There is a value that equals this one and hashes differently. -/
def Value.Clash (env : Env) (v : Value) : Prop :=
  ∃ w, Live w ∧ w.JsonMade ∧ v.eq w = true ∧ hashItems env v ≠ hashItems env w

theorem clash_sub (env : Env) {x v : Value} (h : Sub x v) (hl : Live v) (hj : v.JsonMade) (hr : v.eq v = true)
    (hx : x.Clash env) : v.Clash env := by
  revert hl hj hr hx
  induction h with
  | refl v => exact fun _ _ _ hx => hx
  | @array a w v hv _ ih =>
    intro hl hj hr hx
    have hr' := (eq_array _ _).mp hr
    rw [List.forall₂_same] at hr'
    obtain ⟨k, h1, h2, h3, h4⟩ := ih (hl.array hv) (fun j hs => hj j (.array hv hs)) (hr' v hv) hx
    obtain ⟨l, r, rfl⟩ := List.append_of_mem hv
    refine ⟨.array (l ++ k :: r), live_array fun u hu => ?_, fun j hs => ?_, (eq_array _ _).mpr ?_, fun h => h4 ?_⟩
    · simp only [List.mem_append, List.mem_cons] at hu
      rcases hu with hu | rfl | hu
      · exact hl.array (by simp [hu])
      · exact h1
      · exact hl.array (by simp [hu])
    · cases hs with
      | @array _ _ u hu hs =>
        simp only [List.mem_append, List.mem_cons] at hu
        rcases hu with hu | rfl | hu
        · exact hj j (.array (v := u) (by simp [hu]) hs)
        · exact h2 j hs
        · exact hj j (.array (v := u) (by simp [hu]) hs)
    · refine List.rel_append (List.forall₂_same.mpr fun u hu => hr' u (by simp [hu])) (.cons h3 ?_)
      exact List.forall₂_same.mpr fun u hu => hr' u (by simp [hu])
    · simp only [hashItems, hashList_append, hashList, List.cons.injEq, true_and, List.append_cancel_left_eq] at h
      exact List.append_cancel_right h
  | @map m key w v hv _ ih =>
    intro hl hj hr hx
    have hr' := (eq_map _ _).mp hr
    have hself : ∀ k u, (k, u) ∈ m → u.eq u = true := by
      intro k u hu
      obtain ⟨u', g, e⟩ := hr'.2 k u hu
      rw [get_of_mem hl.nodup hu] at g
      cases g
      exact e
    obtain ⟨k, h1, h2, h3, h4⟩ := ih (hl.map hv) (fun j hs => hj j (.map hv hs)) (hself key v hv) hx
    obtain ⟨l, r, rfl⟩ := List.append_of_mem hv
    have hn : ((l ++ (key, k) :: r).map Prod.fst).Nodup := by
      have := hl.nodup
      simpa using this
    refine ⟨.map (l ++ (key, k) :: r), live_map hn fun i u hu => ?_, fun j hs => ?_, (eq_map _ _).mpr ⟨by simp, fun i u hu => ?_⟩,
      fun h => h4 ?_⟩
    · simp only [List.mem_append, List.mem_cons, Prod.mk.injEq] at hu
      rcases hu with hu | ⟨rfl, rfl⟩ | hu
      · exact hl.map (k := i) (by simp [hu])
      · exact h1
      · exact hl.map (k := i) (by simp [hu])
    · cases hs with
      | @map _ i _ u hu hs =>
        simp only [List.mem_append, List.mem_cons, Prod.mk.injEq] at hu
        rcases hu with hu | ⟨rfl, rfl⟩ | hu
        · exact hj j (.map (k := i) (v := u) (by simp [hu]) hs)
        · exact h2 j hs
        · exact hj j (.map (k := i) (v := u) (by simp [hu]) hs)
    · have hs := hself i u hu
      simp only [List.mem_append, List.mem_cons, Prod.mk.injEq] at hu
      rcases hu with hu | ⟨rfl, rfl⟩ | hu
      · exact ⟨u, get_of_mem hn (by simp [hu]), hs⟩
      · exact ⟨k, get_of_mem hn (by simp), h3⟩
      · exact ⟨u, get_of_mem hn (by simp [hu]), hs⟩
    · simp only [hashItems, hashValues_append, hashValues, List.cons.injEq, true_and, List.map_append, List.map_cons,
        List.append_cancel_left_eq] at h
      exact List.append_cancel_right h

/-! ## The theorem -/

theorem atom_live {v : Value} (h : (∃ x, v = .double x) ∨ (∃ x, v = .single x) ∨ (∃ m a, v = .imaginary (.polar m a)) ∨
    ∃ j, v = .json j) : Live v := by
  rcases h with ⟨x, rfl⟩ | ⟨x, rfl⟩ | ⟨m, a, rfl⟩ | ⟨j, rfl⟩ <;>
    refine ⟨fun i hs => ?_, fun i hs => ?_, fun i hs => ?_⟩ <;> cases hs
  exact .polar m a

/-- C29: a value hashes like every value that equals it if and only if it contains a NaN (then nothing equals it), or
neither a float zero nor a map of two or more entries. -/
theorem C29_hash_exact_partial {env : Env} (hs : env.Serde) {v : Value} (hl : Live v) (hj : v.JsonMade) :
    v.HashesAlike env ↔ HasNan v ∨ (¬ HasFloatZero v ∧ ¬ HasWideMap v) := by
  constructor
  · intro h
    by_cases hn : HasNan v
    · exact .inl hn
    have hr := (C29_refl_iff hl).mpr hn
    have none : ¬ v.Clash env := by
      rintro ⟨w, h1, h2, h3, h4⟩
      exact h4 (h w h1 h2 h3)
    refine .inr ⟨fun hz => none ?_, fun hm => none ?_⟩
    · rcases hz with ⟨x, hx, hsub⟩ | ⟨x, hx, hsub⟩ | ⟨m, a, hx, hsub⟩ | ⟨j, x, hx, hx', hsub⟩
      · refine clash_sub env hsub hl hj hr ?_
        obtain ⟨y, hy, hne⟩ := other_zero64 hx
        refine ⟨.double y, atom_live (.inl ⟨y, rfl⟩), (fun j hs => by cases hs), ?_, fun h => hne ?_⟩
        · simp only [Value.eq]; exact zeros_eq64 hx hy
        · simp only [hashItems, List.cons.injEq, HashItem.floatBytes.injEq, and_true, true_and] at h
          exact (leBytes64_inj h.2).symm
      · refine clash_sub env hsub hl hj hr ?_
        obtain ⟨y, hy, hne⟩ := other_zero32 hx
        refine ⟨.single y, atom_live (.inr (.inl ⟨y, rfl⟩)), (fun j hs => by cases hs), ?_, fun h => hne ?_⟩
        · simp only [Value.eq]; exact zeros_eq32 hx hy
        · simp only [hashItems, List.cons.injEq, HashItem.floatBytes.injEq, and_true, true_and] at h
          exact (leBytes32_inj h.2).symm
      · have hnn : ¬ IsNan64 m ∧ ¬ IsNan64 a :=
          ⟨fun h => hn (.inr (.inr ⟨m, a, .inl h, hsub⟩)), fun h => hn (.inr (.inr ⟨m, a, .inr h, hsub⟩))⟩
        refine clash_sub env hsub hl hj hr ?_
        rcases hx with hx | hx
        · obtain ⟨y, hy, hne⟩ := other_zero64 hx
          refine ⟨.imaginary (.polar y a), atom_live (.inr (.inr (.inl ⟨y, a, rfl⟩))), (fun j hs => by cases hs), ?_, fun h => hne ?_⟩
          · simp only [Value.eq, Imaginary.eq, zeros_eq64 hx hy, (eq64_refl_iff a).mpr hnn.2, Bool.and_self]
          · simp only [hashItems, hashImaginary, List.cons.injEq, HashItem.floatBytes.injEq, and_true, true_and] at h
            exact (leBytes64_inj h.2).symm
        · obtain ⟨y, hy, hne⟩ := other_zero64 hx
          refine ⟨.imaginary (.polar m y), atom_live (.inr (.inr (.inl ⟨m, y, rfl⟩))), (fun j hs => by cases hs), ?_, fun h => hne ?_⟩
          · simp only [Value.eq, Imaginary.eq, zeros_eq64 hx hy, (eq64_refl_iff m).mpr hnn.1, Bool.and_self]
          · simp only [hashItems, hashImaginary, List.cons.injEq, HashItem.floatBytes.injEq, and_true, true_and] at h
            exact (leBytes64_inj h.2).symm
      · obtain ⟨k, hk, he, hne⟩ := json_other hx hx' (hj j hsub)
        refine clash_sub env hsub hl hj hr ⟨.json k, atom_live (.inr (.inr (.inr ⟨k, rfl⟩))), fun i hs => ?_, ?_, fun h => hne ?_⟩
        · cases hs; exact hk
        · simp only [Value.eq]; exact he
        · simp only [hashItems, List.cons.injEq, HashItem.str.injEq, and_true, true_and, hs.print] at h
          exact (C83_different (hj j hsub) hk).1 h
    · obtain ⟨m, hlen, hsub⟩ := hm
      refine clash_sub env hsub hl hj hr ?_
      match m, hlen with
      | (k, x) :: (k', y) :: rest, _ =>
        have hlm : Live (.map ((k, x) :: (k', y) :: rest)) :=
          ⟨fun i h => hl.1 i (sub_trans h hsub), fun i h => hl.2.1 i (sub_trans h hsub), fun i h => hl.2.2 i (sub_trans h hsub)⟩
        have hnm : ¬ HasNan (.map ((k, x) :: (k', y) :: rest)) := by
          rintro (⟨z, hz, h⟩ | ⟨z, hz, h⟩ | ⟨z, a, hz, h⟩)
          · exact hn (.inl ⟨z, hz, sub_trans h hsub⟩)
          · exact hn (.inr (.inl ⟨z, hz, sub_trans h hsub⟩))
          · exact hn (.inr (.inr ⟨z, a, hz, sub_trans h hsub⟩))
        have hnd := hlm.nodup
        have hk : k ≠ k' := by
          intro e
          simp [e] at hnd
        obtain ⟨h1, h2⟩ := C29_refuted_hash_map_order env k k' hk x y rest hlm hnm
        have hmem : ∀ i u, (i, u) ∈ (k', y) :: (k, x) :: rest → (i, u) ∈ (k, x) :: (k', y) :: rest := by
          intro i u hu
          simp only [List.mem_cons] at hu ⊢
          tauto
        refine ⟨_, live_map ?_ fun i u hu => hlm.map (hmem i u hu), fun j hs => ?_, h1, h2⟩
        · simp only [List.map_cons] at hnd ⊢
          exact (List.Perm.swap k' k _).nodup_iff.mp hnd
        · cases hs with
          | @map _ i _ u hu hs => exact hj j (sub_trans (.map (hmem i u hu) hs) hsub)
  · rintro (hn | ⟨hz, hm⟩) w hw _ he
    · exact absurd (C29_trans hl hw hl he (C29_symm hl hw he)) (by rw [C29_refl_iff hl]; exact fun h => h hn)
    · exact C29_hash_partial env hl hw hz hm he

/-- A value that meets the hypotheses: JSON with a zero in an array. -/
example : ¬ (Value.array [.json (.array [.number (.float 0)])]).HashesAlike serdeEnv := by
  have hsub : Sub (.json (.array [.number (.float 0)])) (.array [.json (.array [.number (.float 0)])]) :=
    .array (List.mem_singleton_self _) (.refl _)
  have hl : Live (.array [.json (.array [.number (.float 0)])]) := by
    refine live_array fun v hv => ?_
    rw [List.mem_singleton.mp hv]
    exact atom_live (.inr (.inr (.inr ⟨_, rfl⟩)))
  have hj : (Value.array [.json (.array [.number (.float 0)])]).JsonMade := by
    intro j h
    cases h with
    | array hv h =>
      rw [List.mem_singleton.mp hv] at h
      cases h
      refine .array fun i hi => ?_
      rw [List.mem_singleton.mp hi]
      exact .float (zero_finite (.inl (by decide))) trivial
  rw [C29_hash_exact_partial serdeEnv_serde hl hj]
  rintro (hn | ⟨hz, _⟩)
  · exact (C29_refl_iff hl).mp (by decide +kernel) hn
  · exact hz (.inr (.inr (.inr ⟨_, 0, .inl (by decide), .array (List.mem_singleton_self _) (.refl _), hsub⟩)))

end Souris
