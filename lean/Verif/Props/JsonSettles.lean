import Verif.Props.NoTimestamps
import Verif.Props.ImaginarySerde
import Verif.Props.JsonForm
import Verif.Lemmas.JsonGather

/-! # C103: what was read from JSON can be written as JSON and read again -/

namespace Souris

open Value

/-- A whole number as it is read from JSON. -/
def ReadInt (i : Integer) : Prop :=
  (∃ n : Nat, n < 2 ^ 64 ∧ i = Integer.ofUnsigned 8 n) ∨ ∃ n : Int, -(2 ^ 63) ≤ n ∧ n < 0 ∧ i = Integer.ofSigned 8 n

theorem width8 : Width 8 := by unfold Width; decide

theorem signed8 {n : Int} (h1 : -(2 ^ 63) ≤ n) (h2 : n < 0) : IsSigned 8 n :=
  ⟨h1, by have : (0 : Int) < 2 ^ (8 * 8 - 1) := by decide
          omega⟩

theorem ReadInt.jsonInt {i : Integer} (h : ReadInt i) : Value.JsonInt i := by
  rcases h with ⟨n, h, rfl⟩ | ⟨n, h1, h2, rfl⟩
  · have := (C01_value width8).1 n h
    exact ⟨.unsigned width8 h, by omega, by omega⟩
  · have := (C01_value width8).2 n (signed8 h1 h2)
    exact ⟨.signed width8 (signed8 h1 h2), by omega, by omega⟩

theorem ReadInt.eq {i k : Integer} (h : ReadInt i) (h' : ReadInt k) (e : i.value = k.value) : i = k := by
  rcases h with ⟨n, h, rfl⟩ | ⟨n, h1, h2, rfl⟩ <;> rcases h' with ⟨n', h', rfl⟩ | ⟨n', h1', h2', rfl⟩
  · rw [(C01_value width8).1 n h, (C01_value width8).1 n' h'] at e
    rw [Int.ofNat.inj e]
  · rw [(C01_value width8).1 n h, (C01_value width8).2 n' (signed8 h1' h2')] at e
    omega
  · rw [(C01_value width8).1 n' h', (C01_value width8).2 n (signed8 h1 h2)] at e
    omega
  · rw [(C01_value width8).2 n' (signed8 h1' h2'), (C01_value width8).2 n (signed8 h1 h2)] at e
    rw [e]

theorem readInt_of {n : SJNumber} (hn : SJValue.Made (fun _ => True) (.number n)) {i : Integer}
    (e : Integer.fromJson n = some i) : ReadInt i := by
  cases hn with
  | @posInt n h => cases e; exact .inl ⟨n, h, rfl⟩
  | @negInt n h h0 => cases e; exact .inr ⟨n, h, h0, rfl⟩
  | float h => cases e

theorem finite_of {n : SJNumber} (hn : SJValue.Made (fun _ => True) (.number n)) {b : UInt64}
    (e : SJValue.asF64 n = some b) : f64Format.isFinite b.toNat = true := by
  rw [finite64_iff]
  have := readFloat_sound hn (b := b) (by simpa [Imaginary.readFloat] using e)
  cases this with
  | float => cases hn; assumption
  | whole h1 h2 => exact h2.1

/-- Values as they are read from JSON. -/
inductive Tidy (env : Env) : Value → Prop
  | string (s : List Char) : Tidy env (.string s)
  | binary (b : List UInt8) : Tidy env (.binary b)
  | boolean (b : Bool) : Tidy env (.boolean b)
  | integer {i : Integer} (h : ReadInt i) : Tidy env (.integer i)
  | cartesian {a b : Integer} (h1 : ReadInt a) (h2 : ReadInt b) : Tidy env (.imaginary (.cartesian a b))
  | polar {m a : UInt64} (h1 : f64Format.isFinite m.toNat) (h2 : f64Format.isFinite a.toNat) :
      Tidy env (.imaginary (.polar m a))
  | timestamp {t : Timestamp} {s : List Char} (h : env.tsParse s = some t) : Tidy env (.timestamp t)
  | null : Tidy env .null
  | double {x : UInt64} (h : f64Format.isFinite x.toNat) : Tidy env (.double x)
  | array {a : List Value} (h : ∀ v ∈ a, Tidy env v) : Tidy env (.array a)
  | map {m : List (List Char × Value)} (hk : (m.map Prod.fst).Nodup)
      (hm : ∀ k v, (k, v) ∈ m → ¬ LooksMarked k v) (h : ∀ k v, (k, v) ∈ m → Tidy env v) :
      Tidy env (.map m)
  | timezone {n : List Char} (h : n ∈ env.tzNames) : Tidy env (.timezone n)
  | ipv4 (a b c d : UInt8) : Tidy env (.ipv4 a b c d)
  | ipv6 (a b c d e f g i : UInt16) : Tidy env (.ipv6 a b c d e f g i)

theorem tidy_marked {env : Env} {ty : ValueTy} {m : List (List Char × SJValue)}
    (hm : ∀ k j, (k, j) ∈ m → j.Made fun _ => True) {v : Value} (e : fromMarked env ty m = .ok v) : Tidy env v := by
  cases ty <;> simp only [fromMarked] at e
  case imaginary =>
    split at e
    · rename_i re im h1 h2
      split at e
      · rename_i a b h3 h4
        cases e
        exact .cartesian (readInt_of (hm _ _ (get_mem h1)) h3) (readInt_of (hm _ _ (get_mem h2)) h4)
      · cases e
    · split at e
      · rename_i h1 h2
        split at e
        · rename_i a b h3 h4
          cases e
          exact .polar (finite_of (hm _ _ (get_mem h1)) h3) (finite_of (hm _ _ (get_mem h2)) h4)
        · cases e
      · cases e
  case timestamp =>
    split at e
    · split at e
      · rename_i h
        cases e
        exact .timestamp h
      · cases e
    · cases e
  case timezone =>
    split at e
    · split at e
      · rename_i h
        cases e
        exact .timezone h
      · cases e
    · cases e
  all_goals first | cases e | (repeat' split at e) <;> cases e <;> constructor

/-- What is read from JSON. -/
theorem tidy_read {env : Env} (hord : HashOrder env.mapOrd) (j : SJValue) :
    j.Made (fun _ => True) → ∀ v, fromJson env j = .ok v → Tidy env v := by
  induction j using SJValue.induct with
  | h j ha hm =>
    intro hmade v e
    cases j with
    | null => cases e; exact .null
    | bool b => cases e; exact .boolean b
    | string s => cases e; exact .string s
    | number n =>
      simp only [fromJson] at e
      split at e
      · rename_i i hi
        cases e
        exact .integer (readInt_of hmade hi)
      · split at e
        · rename_i f hf
          cases e
          exact .double (finite_of hmade hf)
        · cases e
    | array a =>
      cases hmade with
      | array h =>
        simp only [fromJson] at e
        rw [Out.bind_eq_ok] at e
        obtain ⟨b, e1, e⟩ := e
        cases e
        have h2 := fromJsonList_forall₂ e1
        refine .array fun v hv => ?_
        obtain ⟨i, hi⟩ := List.getElem?_of_mem hv
        have hi' : i < a.length := by
          rw [h2.length_eq]
          exact (List.getElem?_eq_some_iff.mp hi).1
        exact ha a rfl _ (List.getElem_mem hi') (h _ (List.getElem_mem hi')) v
          (forall₂_get h2 i _ v (List.getElem?_eq_getElem hi') hi)
    | object m =>
      cases hmade with
      | object ho h =>
        simp only [fromJson] at e
        split at e
        · exact tidy_marked h e
        · rename_i hmk
          rw [Out.bind_eq_ok] at e
          obtain ⟨b, e1, e⟩ := e
          cases e
          have hk := made_nodup ho
          have h2 := fromJsonEntries_forall₂ e1
          have hkeys := forall₂_keys (R := fun j w => fromJson env j = .ok w) h2
          rw [collectMap_eq (hkeys ▸ hk)]
          have back : ∀ k w, (k, w) ∈ env.mapOrd b → ∃ j, (k, j) ∈ m ∧ fromJson env j = .ok w := by
            intro k w hw
            obtain ⟨i, hi⟩ := List.getElem?_of_mem ((hord b).mem_iff.mp hw)
            have hi' : i < m.length := by
              rw [h2.length_eq]
              exact (List.getElem?_eq_some_iff.mp hi).1
            have := forall₂_get h2 i _ _ (List.getElem?_eq_getElem hi') hi
            have hmem := List.getElem_mem hi'
            obtain ⟨h3, h4⟩ := this
            refine ⟨m[i].2, ?_, h4⟩
            have h5 : m[i] = (k, m[i].2) := Prod.ext h3 rfl
            exact h5 ▸ hmem
          refine .map ?_ ?_ ?_
          · rw [((hord b).map Prod.fst).nodup_iff, ← hkeys]
            exact hk
          · rintro k w hw ⟨rfl, hl⟩
            obtain ⟨j, hj, ej⟩ := back _ _ hw
            have hnum : ∃ n : Nat, n < 16 ∧ j = .number (.posInt n) := by
              rcases hl with ⟨i, rfl, h0, h16⟩ | ⟨n, _, rfl⟩
              · have hj' := h _ _ hj
                have ht := hm m rfl _ _ hj hj' _ ej
                cases j with
                | number n =>
                  simp only [fromJson] at ej
                  split at ej
                  · rename_i i' hi'
                    cases ej
                    cases hj' with
                    | @posInt n hn =>
                      cases hi'
                      rw [(C01_value width8).1 n hn] at h16
                      exact ⟨n, by omega, rfl⟩
                    | @negInt n hn hn0 =>
                      cases hi'
                      rw [(C01_value width8).2 n (signed8 hn hn0)] at h0
                      omega
                    | float => cases hi'
                  · split at ej <;> cases ej
                | object m =>
                  simp only [fromJson] at ej
                  split at ej
                  · rename_i ty _
                    cases ty <;> simp only [fromMarked] at ej <;> (repeat' split at ej) <;> cases ej
                  · rw [Out.bind_eq_ok] at ej
                    obtain ⟨_, _, ej⟩ := ej
                    cases ej
                | array a =>
                  simp only [fromJson] at ej
                  rw [Out.bind_eq_ok] at ej
                  obtain ⟨_, _, ej⟩ := ej
                  cases ej
                | _ => cases ej
              · exfalso
                have := hm m rfl _ _ hj (h _ _ hj) _ ej
                cases this
            obtain ⟨n, hn, rfl⟩ := hnum
            have hg := get_of_mem hk hj
            rw [← kTy_eq] at hg
            simp only [marker, hg, SJNumber.asU64] at hmk
            rw [if_pos (by omega)] at hmk
            interval_cases n <;> simp [ValueTy.ofU8] at hmk
          · intro k w hw
            obtain ⟨j, hj, ej⟩ := back k w hw
            exact hm m rfl k j hj (h k j hj) w ej

theorem ReadInt.back {P : UInt64 → Prop} {i : Integer} (h : ReadInt i) : ∃ n, i.toJson = some n ∧
    Integer.fromJson n = some i ∧ SJValue.Made P (.number n) := by
  obtain ⟨hn, h1, h2⟩ := h.jsonInt
  have hneg := hn.neg_iff
  by_cases h0 : i.value < 0
  · have hin : i.isNegative = true := by simp only [Integer.isNegative, hneg.mpr h0]; rfl
    have hfit := signed8 h1 h0
    refine ⟨.negInt i.value, ?_, ?_, .negInt h1 h0⟩
    · simp only [Integer.toJson, hin, if_true, C02_signed_fits_partial hn width8 hfit, SJNumber.ofI64, if_pos h0]
    · simp only [Integer.fromJson, SJNumber.asU64, SJNumber.asI64, Option.map_some, Option.some.injEq]
      exact ReadInt.eq (.inr ⟨_, h1, h0, rfl⟩) h ((C01_value width8).2 _ hfit)
  · have hin : i.isNegative = false := by
      have : i.signedState ≠ .signedNegative := fun h => h0 (hneg.mp h)
      simp only [Integer.isNegative]
      cases hs : i.signedState <;> simp_all
    have hfit : IsUnsigned 8 i.value.toNat := by unfold IsUnsigned; omega
    refine ⟨.posInt i.value.toNat, ?_, ?_, .posInt hfit⟩
    · have := ((C02_unsigned_exact hn width8).1 i.value.toNat).mpr ⟨hfit, by omega⟩
      simp [Integer.toJson, hin, this, SJNumber.ofU64]
    · simp only [Integer.fromJson, SJNumber.asU64, Option.some.injEq]
      exact ReadInt.eq (.inl ⟨_, hfit, rfl⟩) h (by rw [(C01_value width8).1 _ hfit]; omega)

theorem Tidy.jsonable {env : Env} {v : Value} (h : Tidy env v)
    (ht : ∀ t, Sub (.timestamp t) v → env.tsParse (env.tsPrint t) = some t) : Jsonable env v := by
  induction h with
  | integer h => exact .integer h.jsonInt
  | cartesian h1 h2 => exact .cartesian h1.jsonInt h2.jsonInt
  | polar h1 h2 => exact .polar h1 h2
  | timestamp => exact .timestamp (ht _ (.refl _))
  | double h => exact .double h
  | timezone h => exact .timezone h
  | array _ ih => exact .array fun v hv => ih v hv fun t hs => ht t (.array hv hs)
  | map hk hm _ ih => exact .map hk hm fun k v hv => ih k v hv fun t hs => ht t (.map hv hs)
  | _ => constructor

theorem made_marked {P : UInt64 → Prop} {types : Bool} {ty : ValueTy} {es : List (List Char × SJValue)}
    (h : ∀ e ∈ es, e.2.Made P) :
    (SJValue.object (es.foldl (fun m e => SJValue.insert e.1 e.2 m) (marked types ty))).Made P := by
  have : ∀ m : List (List Char × SJValue), m.Pairwise (fun x y => x.1 < y.1) → (∀ e ∈ m, e.2.Made P) →
      (SJValue.object (es.foldl (fun m e => SJValue.insert e.1 e.2 m) m)).Made P := by
    induction es with
    | nil => exact fun m h1 h2 => .object (sorted_iff.mpr h1) fun k j hj => h2 _ hj
    | cons e es ih =>
      intro m h1 h2
      refine ih (fun e he => h e (List.mem_cons_of_mem _ he)) _ (insert_sorted h1) fun x hx => ?_
      rcases insert_mem hx with rfl | hx
      · exact h _ List.mem_cons_self
      · exact h2 x hx
  refine this _ ?_ ?_
  · unfold marked; split <;> simp [SJValue.insert]
  · unfold marked
    split
    · intro e he
      simp only [SJValue.insert, List.mem_singleton] at he
      subst he
      exact .posInt (by have := ty.toU8.toNat_lt; omega)
    · simp

theorem made_nums {P : UInt64 → Prop} {a : List Nat} (h : ∀ n ∈ a, n < 2 ^ 64) : (SJValue.array (a.map num)).Made P := by
  refine .array fun j hj => ?_
  obtain ⟨n, hn, rfl⟩ := List.mem_map.mp hj
  exact .posInt (h n hn)

theorem made_addr {P : UInt64 → Prop} {types : Bool} {ty : ValueTy} {a : List Nat} (h : ∀ n ∈ a, n < 2 ^ 64) :
    (addrToJson types ty a).Made P := by
  cases types
  · exact made_nums h
  · exact made_marked (types := true) (ty := ty) (es := [(kOctets, .array (a.map num))]) (by
      simp only [List.mem_singleton, forall_eq]
      exact made_nums h)

theorem float_made {P : UInt64 → Prop} {x : UInt64} (h : f64Format.isFinite x.toNat = true) (hp : P x) :
    SJValue.ofF64 x = some (.float x) ∧ SJValue.Made P (.number (.float x)) :=
  ⟨by simp [SJValue.ofF64, h], .float (finite64_iff.mp h) hp⟩

/-- A float in the value. -/
def HasFloat (x : UInt64) (v : Value) : Prop :=
  Sub (.double x) v ∨ ∃ a, Sub (.imaginary (.polar x a)) v ∨ Sub (.imaginary (.polar a x)) v

theorem HasFloat.array {x : UInt64} {a : List Value} {v : Value} (hv : v ∈ a) (h : HasFloat x v) : HasFloat x (.array a) := by
  rcases h with h | ⟨y, h | h⟩
  · exact .inl (.array hv h)
  · exact .inr ⟨y, .inl (.array hv h)⟩
  · exact .inr ⟨y, .inr (.array hv h)⟩

theorem HasFloat.map {x : UInt64} {m : List (List Char × Value)} {k : List Char} {v : Value} (hv : (k, v) ∈ m)
    (h : HasFloat x v) : HasFloat x (.map m) := by
  rcases h with h | ⟨y, h | h⟩
  · exact .inl (.map hv h)
  · exact .inr ⟨y, .inl (.map hv h)⟩
  · exact .inr ⟨y, .inr (.map hv h)⟩

/-- What was read from JSON can be written as JSON. -/
theorem Tidy.written {P : UInt64 → Prop} {env : Env} (types : Bool) {v : Value} (h : Tidy env v) (hf : ∀ x, HasFloat x v → P x) :
    ∃ j, toJson env types v = some j ∧ j.Made P := by
  induction h with
  | string s => exact ⟨_, rfl, .string s⟩
  | boolean b => exact ⟨_, rfl, .bool b⟩
  | null => exact ⟨_, rfl, .null⟩
  | integer h =>
    obtain ⟨n, e, _, hm⟩ := h.back (P := P)
    exact ⟨.number n, by simp [toJson, e], hm⟩
  | cartesian h1 h2 =>
    obtain ⟨n, e, _, hm⟩ := h1.back (P := P)
    obtain ⟨n', e', _, hm'⟩ := h2.back (P := P)
    refine ⟨_, by simp only [toJson, imaginaryToJson, e, e', Option.bind_eq_bind, Option.bind_some]; rfl, ?_⟩
    exact made_marked (es := [(kReal, .number n), (kImaginary, .number n')]) (by simp [hm, hm'])
  | @polar m a h1 h2 =>
    obtain ⟨e, hm⟩ := float_made (P := P) h1 (hf m (.inr ⟨a, .inl (.refl _)⟩))
    obtain ⟨e', hm'⟩ := float_made (P := P) h2 (hf a (.inr ⟨m, .inr (.refl _)⟩))
    refine ⟨_, by simp only [toJson, imaginaryToJson, e, e', Option.bind_eq_bind, Option.bind_some]; rfl, ?_⟩
    exact made_marked (es := [(kModulus, .number (.float m)), (kArgument, .number (.float a))]) (by simp [hm, hm'])
  | @timestamp t _ _ =>
    exact ⟨_, rfl, made_marked (es := [(kTimestamp, .string (env.tsPrint t))]) (by
      simp only [List.mem_singleton, forall_eq]; exact .string _)⟩
  | @timezone n _ =>
    exact ⟨_, rfl, made_marked (es := [(kTimezone, .string n)]) (by
      simp only [List.mem_singleton, forall_eq]; exact .string _)⟩
  | binary b =>
    refine ⟨_, rfl, made_marked (es := [(kBytes, .array (b.map fun x : UInt8 => num x.toNat))]) ?_⟩
    simp only [List.mem_singleton, forall_eq]
    have := made_nums (P := P) (a := b.map UInt8.toNat) (by
      simp only [List.mem_map]
      rintro _ ⟨x, _, rfl⟩
      have := x.toNat_lt
      omega)
    rwa [List.map_map] at this
  | ipv4 a b c d =>
    refine ⟨_, rfl, made_addr ?_⟩
    have h : ∀ x : UInt8, x.toNat < 2 ^ 64 := fun x => by have := x.toNat_lt; omega
    simp only [List.mem_cons, List.not_mem_nil, or_false]
    rintro n (rfl | rfl | rfl | rfl) <;> exact h _
  | ipv6 a b c d e f g i =>
    refine ⟨_, rfl, made_addr ?_⟩
    have h : ∀ x : UInt16, x.toNat < 2 ^ 64 := fun x => by have := x.toNat_lt; omega
    simp only [List.mem_cons, List.not_mem_nil, or_false]
    rintro n (rfl | rfl | rfl | rfl | rfl | rfl | rfl | rfl) <;> exact h _
  | @double x h =>
    obtain ⟨e, hm⟩ := float_made (P := P) h (hf x (.inl (.refl _)))
    exact ⟨.number (.float x), by simp [toJson, e], hm⟩
  | @array a _ ih =>
    have ih := fun v hv => ih v hv fun x hx => hf x (hx.array hv)
    clear * - ih
    obtain ⟨js, e, hj⟩ : ∃ js, toJsonList env types a = some js ∧ ∀ j ∈ js, j.Made P := by
      induction a with
      | nil => exact ⟨[], by simp [toJsonList], by simp⟩
      | cons v a iha =>
        obtain ⟨j, e1, h1⟩ := ih v List.mem_cons_self
        obtain ⟨js, e2, h2⟩ := iha fun v hv => ih v (List.mem_cons_of_mem _ hv)
        refine ⟨j :: js, by simp [toJsonList, e1, e2], ?_⟩
        intro x hx
        rcases List.mem_cons.mp hx with rfl | hx
        · exact h1
        · exact h2 x hx
    exact ⟨.array js, by simp [toJson, e], .array hj⟩
  | @map m _ _ _ ih =>
    have ih := fun k v hv => ih k v hv fun x hx => hf x (hx.map hv)
    clear * - ih
    obtain ⟨js, e, hj⟩ : ∃ js, toJsonEntries env types m = some js ∧ ∀ e ∈ js, e.2.Made P := by
      induction m with
      | nil => exact ⟨[], by simp [toJsonEntries], by simp⟩
      | cons x m ihm =>
        obtain ⟨k, v⟩ := x
        obtain ⟨j, e1, h1⟩ := ih k v List.mem_cons_self
        obtain ⟨js, e2, h2⟩ := ihm fun k v hv => ih k v (List.mem_cons_of_mem _ hv)
        refine ⟨(k, j) :: js, by simp [toJsonEntries, e1, e2], ?_⟩
        intro x hx
        rcases List.mem_cons.mp hx with rfl | hx
        · exact h1
        · exact h2 x hx
    refine ⟨.object (SJValue.collect js), by simp [toJson, e], .object (sorted_iff.mpr (collect_sorted js)) ?_⟩
    intro k j hkj
    obtain ⟨front, back, rfl, _⟩ := ((gathered_collect js).2 k j).mp hkj
    exact hj (k, j) (by simp)

/-- Of values that were read from JSON, nothing is widened. -/
theorem Tidy.same {env : Env} {v w : Value} (hv : Tidy env v) (hw : Tidy env w) (h : Widened v w) : SameAs v w := by
  induction h with
  | character | json | single => cases hv
  | integer h =>
    cases hv; cases hw
    rename_i h1 h2
    exact .integer (ReadInt.eq h1 h2 h ▸ ⟨rfl, rfl⟩)
  | cartesian h h' =>
    cases hv; cases hw
    rename_i h1 h2 h3 h4
    exact .imaginary (.cartesian (ReadInt.eq h1 h3 h ▸ ⟨rfl, rfl⟩) (ReadInt.eq h2 h4 h' ▸ ⟨rfl, rfl⟩))
  | polar => exact .imaginary (.polar ..)
  | array hl _ ih =>
    cases hv; cases hw
    rename_i h1 h2
    exact .array hl fun i v w e1 e2 => ih i v w e1 e2 (h1 v (List.mem_of_getElem? e1)) (h2 w (List.mem_of_getElem? e2))
  | map hl hk _ ih =>
    cases hv; cases hw
    rename_i h1 _ _ h2
    exact .map hl hk fun k v w e1 e2 => ih k v w e1 e2 (h1 k v e1) (h2 k w e2)
  | _ => constructor

theorem same_widened {v w : Value} (h : SameAs v w) (hv : ∀ j, ¬ Sub (.json j) v) (hs : ∀ x, ¬ Sub (.single x) v)
    (hc : ∀ c, ¬ Sub (.character c) v) : Widened v w := by
  induction h with
  | character c => exact absurd (.refl _) (hc c)
  | json j => exact absurd (.refl _) (hv j)
  | single x => exact absurd (.refl _) (hs x)
  | integer h => exact .integer h.2
  | imaginary h =>
    cases h with
    | cartesian h1 h2 => exact .cartesian h1.2 h2.2
    | polar => exact .polar ..
  | array hl _ ih =>
    refine .array hl fun i v w e1 e2 => ih i v w e1 e2 ?_ ?_ ?_
    · exact fun j h => hv j (.array (List.mem_of_getElem? e1) h)
    · exact fun j h => hs j (.array (List.mem_of_getElem? e1) h)
    · exact fun j h => hc j (.array (List.mem_of_getElem? e1) h)
  | map hl hk _ ih =>
    refine .map hl hk fun k v w e1 e2 => ih k v w e1 e2 ?_ ?_ ?_
    · exact fun j h => hv j (.map e1 h)
    · exact fun j h => hs j (.map e1 h)
    · exact fun j h => hc j (.map e1 h)
  | _ => constructor

theorem Tidy.sub {env : Env} {v w : Value} (h : Tidy env v) (hs : Sub w v) : Tidy env w := by
  induction hs with
  | refl => exact h
  | array hm _ ih => cases h; rename_i h; exact ih (h _ hm)
  | map hm _ ih => cases h; rename_i h; exact ih (h _ _ hm)

theorem Tidy.facts {env : Env} {v : Value} (ht : Tidy env v) : (∀ i, Sub (.integer i) v → i.Native) ∧
    (∀ a b, Sub (.imaginary (.cartesian a b)) v → a.Native ∧ b.Native) ∧ KeysDistinct v ∧
    (∀ j, ¬ Sub (.json j) v) ∧ (∀ x, ¬ Sub (.single x) v) ∧ ∀ c, ¬ Sub (.character c) v :=
  ⟨fun i hs => by cases ht.sub hs; rename_i h; exact h.jsonInt.1,
    fun a b hs => by cases ht.sub hs; rename_i h h'; exact ⟨h.jsonInt.1, h'.jsonInt.1⟩,
    fun m hs => by cases ht.sub hs; assumption,
    fun j hs => by (cases ht.sub hs), fun x hs => by (cases ht.sub hs), fun c hs => by (cases ht.sub hs)⟩

theorem jsonable_reread {env : Env} {v : Value} (h : Jsonable env v) {t : Timestamp} (hs : Sub (.timestamp t) v) :
    env.tsParse (env.tsPrint t) = some t := by
  induction h with
  | timestamp h => cases hs; exact h
  | array _ ih =>
    cases hs with
    | array hm h => exact ih _ hm h
  | map _ _ _ ih =>
    cases hs with
    | map hm h => exact ih _ _ hm h
  | _ => cases hs

theorem entries_mem {env : Env} {m : List (List Char × Value)} {es : List (List Char × SJValue)}
    (e : toJsonEntries env true m = some es) (k : List Char) (j : SJValue) :
    (k, j) ∈ es ↔ ∃ v, (k, v) ∈ m ∧ toJson env true v = some j := by
  have h := toJsonEntries_forall₂ e
  clear e
  induction h with
  | nil => simp
  | @cons x y xs ys h1 _ ih =>
    obtain ⟨k', v⟩ := x
    obtain ⟨k'', j'⟩ := y
    obtain ⟨rfl, h1⟩ := h1
    simp only [List.mem_cons, Prod.mk.injEq, ih]
    constructor
    · rintro (⟨rfl, rfl⟩ | ⟨w, hw, e⟩)
      · exact ⟨v, .inl ⟨rfl, rfl⟩, h1⟩
      · exact ⟨w, .inr hw, e⟩
    · rintro ⟨w, ⟨rfl, rfl⟩ | hw, e⟩
      · rw [h1, Option.some.injEq] at e
        exact .inl ⟨rfl, e.symm⟩
      · exact .inr ⟨w, hw, e⟩

/-- The same values have the same JSON. -/
theorem Tidy.json_eq {env : Env} {v w : Value} (hv : Tidy env v) (hw : Tidy env w) (h : SameAs v w) :
    toJson env true v = toJson env true w := by
  induction h with
  | integer h =>
    cases hv; cases hw
    rename_i h1 h2
    rw [ReadInt.eq h1 h2 h.2]
  | imaginary h =>
    cases h with
    | cartesian h h' =>
      cases hv; cases hw
      rename_i h1 h2 h3 h4
      rw [ReadInt.eq h1 h3 h.2, ReadInt.eq h2 h4 h'.2]
    | polar => rfl
  | @array a b hl _ ih =>
    cases hv; cases hw
    rename_i h1 h2
    simp only [toJson]
    congr 1
    clear * - hl ih h1 h2
    induction a generalizing b with
    | nil => cases b with
      | nil => rfl
      | cons => simp at hl
    | cons x a iha =>
      cases b with
      | nil => simp at hl
      | cons y b =>
        have e1 := ih 0 x y rfl rfl (h1 x List.mem_cons_self) (h2 y List.mem_cons_self)
        have e2 := iha (b := b) (by simpa using hl) (fun i v w => ih (i + 1) v w)
          (fun v hv => h1 v (List.mem_cons_of_mem _ hv)) (fun v hv => h2 v (List.mem_cons_of_mem _ hv))
        simp only [toJsonList, e1, e2]
  | @map m m' hl hkk _ ih =>
    obtain ⟨j, e1, _⟩ := hv.written (P := fun _ => True) true fun _ _ => trivial
    obtain ⟨j', e2, _⟩ := hw.written (P := fun _ => True) true fun _ _ => trivial
    cases hv; cases hw
    rename_i hk _ h1 hk' _ h2
    rw [e1, e2]
    simp only [toJson, Option.map_eq_some_iff] at e1 e2
    obtain ⟨es, e1, rfl⟩ := e1
    obtain ⟨es', e2, rfl⟩ := e2
    have k1 := forall₂_keys (R := fun v j => toJson env true v = some j) (toJsonEntries_forall₂ e1)
    have k2 := forall₂_keys (R := fun v j => toJson env true v = some j) (toJsonEntries_forall₂ e2)
    have n1 : (es.map Prod.fst).Nodup := k1 ▸ hk
    have n2 : (es'.map Prod.fst).Nodup := k2 ▸ hk'
    have hp : es.Perm es' := by
      rw [List.perm_ext_iff_of_nodup n1.of_map n2.of_map]
      rintro ⟨k, j⟩
      rw [entries_mem e1, entries_mem e2]
      constructor
      · rintro ⟨v, hv, e⟩
        obtain ⟨w, hw⟩ := (hkk k).mp ⟨v, hv⟩
        exact ⟨w, hw, by rw [← ih k v w hv hw (h1 k v hv) (h2 k w hw)]; exact e⟩
      · rintro ⟨w, hw, e⟩
        obtain ⟨v, hv⟩ := (hkk k).mpr ⟨w, hw⟩
        exact ⟨v, hv, by rw [ih k v w hv hw (h1 k v hv) (h2 k w hw)]; exact e⟩
    rw [collect_eq (collect_sorted es') (hp.trans (collect_perm n2).symm)]
  | _ => rfl

/-- C103: what was read from JSON can always be written as JSON again. -/
theorem C103_written {env : Env} (hord : HashOrder env.mapOrd) {j : SJValue} (hj : j.Made (fun _ => True)) {v : Value}
    (e : fromJson env j = .ok v) (types : Bool) : ∃ j', toJson env types v = some j' :=
  let ⟨j', h, _⟩ := (tidy_read hord j hj v e).written (P := fun _ => True) types fun _ _ => trivial
  ⟨j', h⟩

/-- C103 for each JSON: what was read from it is, written and read once more, the same value, exactly if the text of
each timestamp in it is read as this timestamp. -/
theorem C103_exact {env : Env} (hord : HashOrder env.mapOrd) {j : SJValue} (hj : j.Made (fun _ => True)) {v : Value}
    (e : fromJson env j = .ok v) :
    (∃ j' v', toJson env true v = some j' ∧ fromJson env j' = .ok v' ∧ SameAs v v') ↔
      ∀ t, Sub (.timestamp t) v → env.tsParse (env.tsPrint t) = some t := by
  have ht := tidy_read hord j hj v e
  obtain ⟨hi, hz, hk, hjs, hss, hcs⟩ := ht.facts
  constructor
  · rintro ⟨j', v', e1, e2, h⟩ t hs
    exact jsonable_reread ((C31_exact hord hi hz hk fun j hs => absurd hs (hjs j)).mp
      ⟨j', v', e1, e2, same_widened h hjs hss hcs⟩) hs
  · intro hts
    obtain ⟨j', w, e1, e2, h⟩ := C31_roundtrip_partial hord (ht.jsonable hts)
    obtain ⟨j'', e3, hm⟩ := ht.written (P := fun _ => True) true fun _ _ => trivial
    rw [e1, Option.some.injEq] at e3
    subst e3
    exact ⟨j', w, e1, e2, ht.same (tidy_read hord j' hm w e2) h⟩

/-- C103: from then on the JSON stays the same. If what is read is the same value, it is written as the same JSON. -/
theorem C103_settled {env : Env} (hord : HashOrder env.mapOrd) {j j' : SJValue} (hj : j.Made (fun _ => True)) {v v' : Value}
    (e : fromJson env j = .ok v) (e1 : toJson env true v = some j') (e2 : fromJson env j' = .ok v') (h : SameAs v v') :
    toJson env true v' = some j' := by
  have ht := tidy_read hord j hj v e
  obtain ⟨j'', e3, hm⟩ := ht.written (P := fun _ => True) true fun _ _ => trivial
  rw [e1, Option.some.injEq] at e3
  subst e3
  rw [← ht.json_eq (tidy_read hord j' hm v' e2) h, e1]

theorem tidy_store {env : Env} (hord : HashOrder env.mapOrd) {j : SJValue} (hj : j.Made (fun _ => True)) {s : Store}
    (e : Store.fromJson env j = .ok s) : Tidy env (.map s) := by
  unfold Store.fromJson at e
  have ht := tidy_read hord j hj
  cases h : fromJson env j with
  | ok v =>
    have ht := ht v h
    rw [h] at e
    have wrap : ∀ v, Tidy env v → Tidy env (.map [(Store.kJson, v)]) := fun v hv => by
      refine .map (by simp) ?_ ?_
      · intro k x hx hl
        simp only [List.mem_singleton, Prod.mk.injEq] at hx
        have := hl.1
        rw [hx.1, ← kTy_eq] at this
        revert this
        decide
      · intro k x hx
        simp only [List.mem_singleton, Prod.mk.injEq] at hx
        rw [hx.2]
        exact hv
    cases v with
    | map m => cases e; exact ht
    | _ => cases e; exact wrap _ ht
  | err x => rw [h] at e; cases e
  | panic x => rw [h] at e; cases e

/-- The JSON of a store is that of its only value, if that is under the key `JSON`, or of all of it. -/
theorem store_toJson {env : Env} {types : Bool} {s : Store} {j : SJValue} (e : Store.toJson env types s = some j) :
    (∃ v, s = [("JSON".toList, v)] ∧ toJson env types v = some j) ∨ toJson env types (.map s) = some j := by
  unfold Store.toJson at e
  split at e
  · rename_i v hv
    split at hv
    · rename_i h1
      obtain ⟨⟨k, w⟩, rfl⟩ := List.length_eq_one_iff.mp h1
      have := get_mem hv
      simp only [List.mem_singleton, Prod.mk.injEq] at this
      obtain ⟨rfl, rfl⟩ := this
      exact .inl ⟨v, rfl, e⟩
    · cases hv
  · exact .inr e

/-- C103 for each store read from JSON: exported and imported once more it is the same, exactly if the text of each
timestamp in it is read as this timestamp and it is not one map under the key `JSON`. -/
theorem C103_store_exact {env : Env} (hord : HashOrder env.mapOrd) {j : SJValue} (hj : j.Made (fun _ => True)) {s : Store}
    (e : Store.fromJson env j = .ok s) :
    (∃ j' s', Store.toJson env true s = some j' ∧ Store.fromJson env j' = .ok s' ∧ SameAs (.map s) (.map s')) ↔
      (∀ t, Sub (.timestamp t) (.map s) → env.tsParse (env.tsPrint t) = some t) ∧
        ∀ m, s ≠ [("JSON".toList, .map m)] := by
  have ht := tidy_store hord hj e
  obtain ⟨hi, hz, hk, hjs, hss, hcs⟩ := ht.facts
  have hx := C36_store_exact hord hi hz hk fun j hs => absurd hs (hjs j)
  constructor
  · rintro ⟨j', s', e1, e2, h⟩
    obtain ⟨h1, h2⟩ := hx.mp ⟨j', s', e1, e2, same_widened h hjs hss hcs⟩
    exact ⟨fun t hs => jsonable_reread h1 hs, fun m hm => (h2 _ hm).1 m rfl⟩
  · rintro ⟨h1, h2⟩
    obtain ⟨j', s', e1, e2, h⟩ := hx.mpr ⟨ht.jsonable h1, fun v hv => ⟨fun m hm => h2 m (hm ▸ hv), fun m hm => by
      subst hv hm
      exact hjs _ (.map (List.mem_singleton_self _) (.refl _))⟩⟩
    have hm : j'.Made fun _ => True := by
      rcases store_toJson e1 with ⟨v, rfl, e3⟩ | e3
      · cases ht
        rename_i h
        obtain ⟨j'', e4, hm⟩ := (h _ v (List.mem_singleton_self _)).written (P := fun _ => True) true fun _ _ => trivial
        rw [e3, Option.some.injEq] at e4
        exact e4 ▸ hm
      · obtain ⟨j'', e4, hm⟩ := ht.written (P := fun _ => True) true fun _ _ => trivial
        rw [e3, Option.some.injEq] at e4
        exact e4 ▸ hm
    exact ⟨j', s', e1, e2, ht.same (tidy_store hord hm e2) h⟩

/-- C103 as far as it holds: without timestamps, what was read from JSON is the same after it was written and read once
more. -/
theorem C103_same_partial {env : Env} (hord : HashOrder env.mapOrd) {j : SJValue} (hj : j.Made (fun _ => True)) {v : Value}
    (e : fromJson env j = .ok v) (ht : ∀ t, ¬ Sub (.timestamp t) v) :
    ∃ j' v', toJson env true v = some j' ∧ fromJson env j' = .ok v' ∧ SameAs v v' :=
  (C103_exact hord hj e).mpr fun t hs => absurd hs (ht t)

theorem parsed_valid {s : List Char} {t : Timestamp} (h : Chrono.parse s = some t) : t.Valid := by
  obtain ⟨a, w, b, _, hd, _, htm⟩ := C86_reads.mp h
  obtain ⟨h1, h2, h3, h4⟩ := htm.exists_
  exact ⟨hd.exists_, h1, h2, h3, by omega⟩

/-- **C103** is violated by every JSON in which a timestamp is read: the value cannot be brought back. -/
theorem C103_refuted_timestamp {env : Env} (hc : env.Chrono) (hord : HashOrder env.mapOrd) {j : SJValue}
    (hj : j.Made (fun _ => True)) {v : Value} (e : fromJson env j = .ok v) {t : Timestamp} (hs : Sub (.timestamp t) v) :
    ¬ ∃ j' v', toJson env true v = some j' ∧ fromJson env j' = .ok v' ∧ SameAs v v' := by
  rw [C103_exact hord hj e]
  intro h
  have ht := (tidy_read hord j hj v e).sub hs
  cases ht with
  | timestamp h' =>
    rw [hc.parse] at h'
    have := h t hs
    rw [hc.print, hc.parse, C86_refuted_every (parsed_valid h')] at this
    cases this

-- an address, an array and numbers of all kinds
example : ∃ j' v', toJson sampleEnv true (.array [.ipv4 127 0 0 1, .integer (Integer.ofSigned 8 (-5))]) = some j' ∧
    fromJson sampleEnv j' = .ok v' ∧ SameAs (.array [.ipv4 127 0 0 1, .integer (Integer.ofSigned 8 (-5))]) v' := by
  refine C103_same_partial (j := .array [.object [(kOctets, .array [.number (.posInt 127), .number (.posInt 0),
    .number (.posInt 0), .number (.posInt 1)]), (kTy, .number (.posInt 13))], .number (.negInt (-5))])
    (fun l => .refl l) ?_ rfl ?_
  · refine .array ?_
    simp only [List.mem_cons, List.not_mem_nil, or_false, forall_eq_or_imp, forall_eq]
    refine ⟨.object (by decide) ?_, .negInt (by decide) (by decide)⟩
    simp only [List.mem_cons, List.not_mem_nil, or_false, Prod.mk.injEq]
    rintro k j (⟨rfl, rfl⟩ | ⟨rfl, rfl⟩)
    · refine .array ?_
      simp only [List.mem_cons, List.not_mem_nil, or_false, forall_eq_or_imp, forall_eq]
      exact ⟨.posInt (by decide), .posInt (by decide), .posInt (by decide), .posInt (by decide)⟩
    · exact .posInt (by decide)
  · intro t h
    rcases h with _ | ⟨hm, h⟩
    simp only [List.mem_cons, List.not_mem_nil, or_false] at hm
    rcases hm with rfl | rfl <;> cases h

-- a timestamp is read, but it is not read again
example : ∃ t, fromJson chronoEnv (.object [("souris_type".toList, .number (.posInt 6)),
      ("timestamp".toList, .string "2016-12-31T23:59:60.5".toList)]) = .ok (.timestamp t) ∧
    ¬ ∃ j' v', toJson chronoEnv true (.timestamp t) = some j' ∧ fromJson chronoEnv j' = .ok v' ∧ SameAs (.timestamp t) v' := by
  have e : fromJson chronoEnv (.object [("souris_type".toList, .number (.posInt 6)),
      ("timestamp".toList, .string "2016-12-31T23:59:60.5".toList)]) = .ok (.timestamp leapSecond) :=
    (C31_timestamp chronoEnv_chrono).mpr (C86_reads.mp (by decide +kernel))
  refine ⟨leapSecond, e, C103_refuted_timestamp chronoEnv_chrono (fun l => .refl l) (.object (by decide +kernel) ?_) e (.refl _)⟩
  simp only [List.mem_cons, List.not_mem_nil, or_false, Prod.mk.injEq]
  rintro k j (⟨rfl, rfl⟩ | ⟨rfl, rfl⟩)
  · exact .posInt (by decide)
  · exact .string _

-- one map under the key `JSON`
example (env : Env) (hord : HashOrder env.mapOrd) :
    ¬ ∃ j' s', Store.toJson env true [("JSON".toList, .map [])] = some j' ∧ Store.fromJson env j' = .ok s' ∧
      SameAs (.map [("JSON".toList, .map [])]) (.map s') := by
  rw [C103_store_exact hord (j := .object [("JSON".toList, .object [])])]
  · exact fun h => h.2 [] rfl
  · refine .object (by simp) ?_
    simp only [List.mem_singleton, Prod.mk.injEq]
    rintro k j ⟨rfl, rfl⟩
    exact .object (by simp) (by simp)
  · have h0 : env.mapOrd [] = [] := List.perm_nil.mp (hord [])
    have h1 : ∀ x, env.mapOrd [x] = [x] := fun x => List.perm_singleton.mp (hord [x])
    have e : fromJson env (.object []) = .ok (.map []) := by
      change Out.ok (Value.map (env.mapOrd [])) = _
      rw [h0]
    have hm : marker [("JSON".toList, SJValue.object [])] = none := rfl
    have e' : fromJson env (.object [("JSON".toList, .object [])]) = .ok (.map [("JSON".toList, .map [])]) := by
      rw [fromJson, hm]
      simp only [fromJsonEntries, e]
      change Out.ok (Value.map (env.mapOrd [_])) = _
      rw [h1]
    simp only [Store.fromJson, e']

end Souris
