import Verif.Spec.ValueJson
import Verif.Lemmas.ValueEq
import Verif.Props.IntegerConv
import Verif.Props.Value

/-! # Lemmas about the JSON form of values -/

namespace Souris

/-! ## Maps -/

theorem insert_perm {α : Type} {k : List Char} {v : α} {m : List (List Char × α)} (h : k ∉ m.map Prod.fst) :
    (SJValue.insert k v m).Perm ((k, v) :: m) := by
  induction m with
  | nil => exact .refl _
  | cons x xs ih =>
    obtain ⟨k', v'⟩ := x
    simp only [List.map_cons, List.mem_cons, not_or] at h
    simp only [SJValue.insert, if_neg h.1]
    split
    · exact .refl _
    · exact ((ih h.2).cons _).trans (.swap _ _ _)

theorem collect_perm {es : List (List Char × SJValue)} (h : (es.map Prod.fst).Nodup) :
    (SJValue.collect es).Perm es := by
  have key : ∀ acc : List (List Char × SJValue), ((es ++ acc).map Prod.fst).Nodup →
      (es.foldl (fun m e => SJValue.insert e.1 e.2 m) acc).Perm (es ++ acc) := by
    clear h
    induction es with
    | nil => intro acc _; exact .refl _
    | cons e es ih =>
      intro acc hn
      simp only [List.foldl_cons]
      have hn' : e.1 ∉ (es ++ acc).map Prod.fst ∧ ((es ++ acc).map Prod.fst).Nodup := by simpa using hn
      have hp := insert_perm (k := e.1) (v := e.2) (m := acc) (fun hc => hn'.1 (by
        rw [List.map_append, List.mem_append]; exact .inr hc))
      have hperm : (es ++ SJValue.insert e.1 e.2 acc).Perm (e :: es ++ acc) :=
        (hp.append_left es).trans List.perm_middle
      refine (ih _ ?_).trans hperm
      exact (hperm.map Prod.fst).nodup_iff.mpr hn
  have := key [] (by simpa using h)
  simpa [SJValue.collect] using this

theorem mapInsert_absent {k : List Char} {v : Value} {m : List (List Char × Value)} (h : k ∉ m.map Prod.fst) :
    Value.mapInsert k v m = m ++ [(k, v)] := by
  induction m with
  | nil => rfl
  | cons x xs ih =>
    obtain ⟨k', v'⟩ := x
    simp only [List.map_cons, List.mem_cons, not_or] at h
    simp only [Value.mapInsert, if_neg h.1, ih h.2, List.cons_append]

theorem collectMap_eq {es : List (List Char × Value)} (h : (es.map Prod.fst).Nodup) :
    Value.collectMap es = es := by
  have key : ∀ acc : List (List Char × Value), ((acc ++ es).map Prod.fst).Nodup →
      es.foldl (fun m e => Value.mapInsert e.1 e.2 m) acc = acc ++ es := by
    clear h
    induction es with
    | nil => intro acc _; simp
    | cons e es ih =>
      intro acc hn
      simp only [List.foldl_cons]
      have hne : e.1 ∉ acc.map Prod.fst := by
        intro hc
        rw [List.map_append, List.nodup_append] at hn
        exact hn.2.2 _ hc _ (by simp) rfl
      rw [mapInsert_absent hne, ih]
      · simp
      · simpa using hn
  exact key [] (by simpa using h)

/-! ## Floats -/

theorem fields64 {s E M : Nat} (hs : s < 2) (hE : E < 2048) (hM : M < 2 ^ 52) :
    (UInt64.ofNat (s * 2 ^ 63 + E * 2 ^ 52 + M)).toNat = s * 2 ^ 63 + E * 2 ^ 52 + M ∧
    f64Format.exponent (s * 2 ^ 63 + E * 2 ^ 52 + M) = E ∧
    f64Format.mantissa (s * 2 ^ 63 + E * 2 ^ 52 + M) = M ∧
    f64Format.neg (s * 2 ^ 63 + E * 2 ^ 52 + M) = decide (s = 1) := by
  refine ⟨?_, ?_, ?_, ?_⟩
  · rw [UInt64.toNat_ofNat']
    exact Nat.mod_eq_of_lt (by omega)
  · simp only [FloatFormat.exponent, f64Format]; omega
  · simp only [FloatFormat.mantissa, f64Format]; omega
  · simp only [FloatFormat.neg, f64Format]
    refine decide_eq_decide.mpr ?_
    omega

theorem sameFloat_of {x : UInt32} {s E M : Nat} (hs : s < 2) (hE : E < 2047) (hM : M < 2 ^ 52)
    (hneg : f32Format.neg x.toNat = decide (s = 1))
    (hmag : (if E = 0 then M else (2 ^ 52 + M) * 2 ^ (E - 1)) = f32Format.mag x.toNat * 2 ^ 925) :
    Value.SameFloat x (UInt64.ofNat (s * 2 ^ 63 + E * 2 ^ 52 + M)) := by
  obtain ⟨h1, h2, h3, h4⟩ := fields64 hs (by omega : E < 2048) hM
  unfold Value.SameFloat
  rw [h1]
  constructor
  · unfold FloatFormat.isFinite
    rw [h2]
    refine decide_eq_true ?_
    simp only [f64Format]
    omega
  · have hm : f64Format.mag (s * 2 ^ 63 + E * 2 ^ 52 + M) = f32Format.mag x.toNat * 2 ^ 925 := by
      unfold FloatFormat.mag at hmag ⊢
      rw [h2, h3]
      exact hmag
    unfold FloatFormat.num
    rw [h4, hm, hneg]
    have e : ((f32Format.mag x.toNat * 2 ^ 925 : Nat) : Int) = (f32Format.mag x.toNat : Int) * 2 ^ 925 := by
      rw [Nat.cast_mul, Nat.cast_pow]; rfl
    rw [e]
    generalize (2 : Int) ^ 925 = p
    split
    · rw [Int.neg_mul]
    · rfl

theorem widen_sameFloat {x : UInt32} (hx : f32Format.isFinite x.toNat = true) : Value.SameFloat x (widen x) := by
  have hlt := x.toNat_lt
  have hneg : f32Format.neg x.toNat = decide (x.toNat / 2 ^ 31 = 1) := by
    simp only [FloatFormat.neg, f32Format]
    refine decide_eq_decide.mpr ?_
    omega
  have hs : x.toNat / 2 ^ 31 < 2 := by omega
  have he : f32Format.exponent x.toNat < 255 := by
    have h1 : f32Format.exponent x.toNat ≠ 255 := of_decide_eq_true hx
    have h2 : f32Format.exponent x.toNat < 2 ^ 8 := Nat.mod_lt _ (by decide)
    omega
  have hm : f32Format.mantissa x.toNat < 2 ^ 23 := Nat.mod_lt _ (by decide)
  have hmag : f32Format.mag x.toNat = if f32Format.exponent x.toNat = 0 then f32Format.mantissa x.toNat
      else (2 ^ 23 + f32Format.mantissa x.toNat) * 2 ^ (f32Format.exponent x.toNat - 1) := rfl
  unfold widen
  simp only
  generalize f32Format.exponent x.toNat = e at *
  generalize f32Format.mantissa x.toNat = m at *
  rw [if_neg (by omega)]
  split
  · rename_i h0
    rw [if_pos h0] at hmag
    split
    · rename_i hm0
      have := sameFloat_of (x := x) (E := 0) (M := 0) hs (by omega) (by omega) hneg (by rw [hmag, hm0]; simp)
      simpa using this
    · rename_i hm0
      have h1 : 2 ^ m.log2 ≤ m := Nat.log2_self_le hm0
      have h2 : m < 2 ^ (m.log2 + 1) := Nat.lt_log2_self
      have h3 : m.log2 < 23 := (Nat.log2_lt hm0).mpr hm
      generalize m.log2 = t at *
      have h4 : (2 : Nat) ^ 52 = 2 ^ t * 2 ^ (52 - t) := by rw [← Nat.pow_add]; congr 1; omega
      refine sameFloat_of hs (by omega) ?_ hneg ?_
      · rw [h4]
        refine Nat.mul_lt_mul_of_pos_right ?_ (Nat.pow_pos (by decide))
        rw [Nat.pow_succ] at h2
        omega
      · rw [if_neg (by omega), hmag, h4, ← Nat.add_mul, Nat.add_sub_cancel' h1, Nat.mul_assoc, ← Nat.pow_add,
          (by omega : 52 - t + (t + 874 - 1) = 925)]
  · rename_i h0
    rw [if_neg h0] at hmag
    refine sameFloat_of hs (by omega) (by omega) hneg ?_
    rw [if_neg (by omega), hmag]
    have e1 : (2 : Nat) ^ 52 + m * 2 ^ 29 = (2 ^ 23 + m) * 2 ^ 29 := by omega
    rw [e1, Nat.mul_assoc, Nat.mul_assoc, ← Nat.pow_add, ← Nat.pow_add,
      (by omega : 29 + (e + 896 - 1) = e - 1 + 925)]

/-! ## Markers -/

namespace Value

theorem kTy_eq : kTy = "souris_type".toList := by decide

theorem marker_none {m : List (List Char × SJValue)} (h : ¬ SJValue.Marked m) : marker m = none := by
  unfold marker
  split
  · rename_i n e
    have hmem := get_mem e
    cases n with
    | posInt u =>
      simp only [SJNumber.asU64]
      split
      · split
        · rename_i hu _ ty hty
          exfalso
          apply h
          rw [C32_valueTy] at hty
          refine ⟨u, ?_, kTy_eq ▸ hmem⟩
          have h1 := ValueTy.toU8_lt ty
          rw [← hty] at h1
          have h2 : (UInt8.ofNat u).toNat < 16 := h1
          rw [UInt8.toNat_ofNat'] at h2
          omega
        · rfl
      · rfl
    | negInt u => rfl
    | float u => rfl
  · rfl

theorem ints_num (bound : Nat) (l : List Nat) (h : ∀ n ∈ l, n < bound) :
    smallInts bound (l.map num) = some l := by
  induction l with
  | nil => rfl
  | cons n l ih =>
    simp only [List.map_cons, smallInts]
    have : (num n).asU64 = some n := rfl
    rw [this]
    simp only
    rw [if_pos (h n (by simp)), ih (fun n hn => h n (by simp [hn]))]
    rfl

/-! ## JSON contents -/

theorem fromJson_number (env : Env) {n : SJNumber} (h : n.Ok) :
    ∃ w, fromJson env (.number n) = .ok w ∧ Contents (.number n) w := by
  have hw : Width 8 := by unfold Width; decide
  cases n with
  | posInt n =>
    refine ⟨.integer (Integer.ofUnsigned 8 n), rfl, .posInt ?_⟩
    exact (C01_value hw).1 n h
  | negInt n =>
    refine ⟨.integer (Integer.ofSigned 8 n), rfl, .negInt ?_⟩
    refine (C01_value hw).2 n ?_
    unfold IsSigned
    obtain ⟨h1, h2⟩ := h
    constructor
    · exact h1
    · have : (0 : Int) < 2 ^ (8 * 8 - 1) := by decide
      omega
  | float x => exact ⟨.double x, rfl, .float x⟩

theorem fromJsonList_of {env : Env} {R : SJValue → Value → Prop} (a : List SJValue)
    (h : ∀ j ∈ a, ∃ w, fromJson env j = .ok w ∧ R j w) :
    ∃ b, fromJsonList env a = .ok b ∧ List.Forall₂ R a b := by
  induction a with
  | nil => exact ⟨[], rfl, .nil⟩
  | cons j js ih =>
    obtain ⟨w, e, hw⟩ := h j (by simp)
    obtain ⟨b, e', hb⟩ := ih fun j hj => h j (by simp [hj])
    exact ⟨w :: b, by simp only [fromJsonList, e, e']; rfl, .cons hw hb⟩

theorem fromJsonEntries_of {env : Env} {R : SJValue → Value → Prop} (a : List (List Char × SJValue))
    (h : ∀ k j, (k, j) ∈ a → ∃ w, fromJson env j = .ok w ∧ R j w) :
    ∃ b, fromJsonEntries env a = .ok b ∧ List.Forall₂ (fun x y => x.1 = y.1 ∧ R x.2 y.2) a b := by
  induction a with
  | nil => exact ⟨[], rfl, .nil⟩
  | cons x js ih =>
    obtain ⟨k, j⟩ := x
    obtain ⟨w, e, hw⟩ := h k j (by simp)
    obtain ⟨b, e', hb⟩ := ih fun k j hj => h k j (by simp [hj])
    exact ⟨(k, w) :: b, by simp only [fromJsonEntries, e, e']; rfl, .cons ⟨rfl, hw⟩ hb⟩

theorem forall₂_get {α β : Type} {R : α → β → Prop} {a : List α} {b : List β} (h : List.Forall₂ R a b) :
    ∀ (i : Nat) (x : α) (y : β), a[i]? = some x → b[i]? = some y → R x y := by
  induction h with
  | nil => intro i x y hx; simp at hx
  | cons h1 _ ih =>
    intro i x y hx hy
    cases i with
    | zero => simp only [List.getElem?_cons_zero, Option.some.injEq] at hx hy; rw [← hx, ← hy]; exact h1
    | succ i => exact ih i x y (by simpa using hx) (by simpa using hy)

theorem forall₂_keys {α β : Type} {R : α → β → Prop} {a : List (List Char × α)} {b : List (List Char × β)}
    (h : List.Forall₂ (fun x y => x.1 = y.1 ∧ R x.2 y.2) a b) : a.map Prod.fst = b.map Prod.fst := by
  induction h with
  | nil => rfl
  | cons h1 _ ih => simp only [List.map_cons, h1.1, ih]

theorem forall₂_entry {α β : Type} {R : α → β → Prop} {a : List (List Char × α)} {b : List (List Char × β)}
    (h : List.Forall₂ (fun x y => x.1 = y.1 ∧ R x.2 y.2) a b) (hn : (a.map Prod.fst).Nodup) :
    ∀ k x y, (k, x) ∈ a → (k, y) ∈ b → R x y := by
  induction h with
  | nil => intro k x y hx; simp at hx
  | @cons p q a b h1 h2 ih =>
    intro k x y hx hy
    simp only [List.map_cons, List.nodup_cons] at hn
    have hk := forall₂_keys h2
    rcases List.mem_cons.mp hx with rfl | hx
    · rcases List.mem_cons.mp hy with rfl | hy
      · exact h1.2
      · exact absurd (hk ▸ List.mem_map.mpr ⟨_, hy, rfl⟩) hn.1
    · rcases List.mem_cons.mp hy with rfl | hy
      · refine absurd ?_ hn.1
        rw [h1.1]
        exact List.mem_map.mpr ⟨_, hx, rfl⟩
      · exact ih hn.2 k x y hx hy

theorem keys_mem {α : Type} {m : List (List Char × α)} {k : List Char} :
    k ∈ m.map Prod.fst ↔ ∃ v, (k, v) ∈ m := by simp

theorem fromJson_plain {env : Env} (hord : ∀ l, (env.mapOrd l).Perm l) {j : SJValue} (h : j.Plain) :
    ∃ w, fromJson env j = .ok w ∧ Contents j w := by
  induction h with
  | null => exact ⟨_, rfl, .null⟩
  | bool b => exact ⟨_, rfl, .bool b⟩
  | number h => exact fromJson_number env h
  | string s => exact ⟨_, rfl, .string s⟩
  | @array a _ ih =>
    obtain ⟨b, e, hb⟩ := fromJsonList_of a ih
    exact ⟨.array b, by simp only [fromJson, e]; rfl, .array hb.length_eq (forall₂_get hb)⟩
  | @object m hk hm _ ih =>
    obtain ⟨b, e, hb⟩ := fromJsonEntries_of m ih
    have hkeys := forall₂_keys hb
    have hp := hord b
    refine ⟨.map (env.mapOrd b), ?_, .object ?_ ?_ ?_⟩
    · simp only [fromJson, marker_none hm, e]
      show Out.ok (Value.map (env.mapOrd (collectMap b))) = _
      rw [collectMap_eq (hkeys ▸ hk)]
    · rw [hp.length_eq, hb.length_eq]
    · intro k
      rw [← keys_mem, hkeys, keys_mem]
      simp only [hp.mem_iff]
    · intro k j v h1 h2
      exact forall₂_entry hb hk k j v h1 (hp.mem_iff.mp h2)

end Value

end Souris
