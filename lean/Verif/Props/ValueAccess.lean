import Verif.Props.Integer
import Verif.Model.ValueAccess
import Verif.Lemmas.Value

/-! # C30: typed access -/

namespace Souris

open Value

/-- Specification of an accessor of one variant, given by its constructor and its type tag: everything
succeeds exactly on the variant, returns or replaces its contents, and otherwise reports both types. -/
structure ExactAccess {T : Type} (acc : Accessor T) (ctor : T → Value) (ty : ValueTy) : Prop where
  new : ∀ x, acc.new x = ctor x
  hasTy : ∀ v : Value, v.asTy = ty ↔ ∃ x, v = ctor x
  extract : ∀ v x, acc.extract v = some x ↔ v = ctor x
  is : ∀ v, acc.is v = true ↔ ∃ x, v = ctor x
  update : ∀ f v w, acc.update f v = some w ↔ ∃ x, v = ctor x ∧ w = ctor (f x)
  tryFrom : ∀ v x, acc.tryFrom v = .ok x ↔ v = ctor x
  mismatch : ∀ v, (∀ x, v ≠ ctor x) → acc.tryFrom v = .err (.unexpectedValueType v.asTy ty)

/-- C30 for one variant, from facts that hold by cases. -/
theorem exactAccess {T : Type} {acc : Accessor T} {ctor : T → Value} {ty : ValueTy}
    (new : ∀ x, acc.new x = ctor x) (hty : ∀ x, (ctor x).asTy = ty)
    (hinj : ∀ x y, ctor x = ctor y → x = y)
    (hhit : ∀ x, acc.extract (ctor x) = some x ∧ acc.is (ctor x) = true ∧
      (∀ f, acc.update f (ctor x) = some (ctor (f x))))
    (hmiss : ∀ v, (∃ x, v = ctor x) ∨
      (v.asTy ≠ ty ∧ acc.extract v = none ∧ acc.is v = false ∧ ∀ f, acc.update f v = none))
    (htry : ∀ v, acc.tryFrom v = tryWith acc.extract ty v) : ExactAccess acc ctor ty := by
  refine ⟨new, fun v => ?_, fun v x => ?_, fun v => ?_, fun f v w => ?_, fun v x => ?_, fun v hv => ?_⟩
  · rcases hmiss v with ⟨x, rfl⟩ | h
    · exact ⟨fun _ => ⟨x, rfl⟩, fun _ => hty x⟩
    · exact ⟨fun e => absurd e h.1, fun ⟨x, e⟩ => absurd (e ▸ hty x) h.1⟩
  · rcases hmiss v with ⟨y, rfl⟩ | h
    · rw [(hhit y).1, Option.some.injEq]
      exact ⟨fun e => e ▸ rfl, hinj y x⟩
    · rw [h.2.1]
      exact ⟨fun e => (by cases e), fun e => absurd (e ▸ hty x) h.1⟩
  · rcases hmiss v with ⟨y, rfl⟩ | h
    · simp only [(hhit y).2.1, true_iff]; exact ⟨y, rfl⟩
    · rw [h.2.2.1]
      exact ⟨fun e => (by cases e), fun ⟨x, e⟩ => absurd (e ▸ hty x) h.1⟩
  · rcases hmiss v with ⟨y, rfl⟩ | h
    · rw [(hhit y).2.2 f, Option.some.injEq]
      constructor
      · rintro rfl; exact ⟨y, rfl, rfl⟩
      · rintro ⟨x, e, rfl⟩; rw [hinj y x e]
    · rw [h.2.2.2 f]
      exact ⟨fun e => (by cases e), fun ⟨x, e, _⟩ => absurd (e ▸ hty x) h.1⟩
  · rw [htry, tryWith]
    rcases hmiss v with ⟨y, rfl⟩ | h
    · rw [(hhit y).1]
      simp only [Out.ok.injEq]
      exact ⟨fun e => e ▸ rfl, hinj y x⟩
    · rw [h.2.1]
      exact ⟨fun e => (by cases e), fun e => absurd (e ▸ hty x) h.1⟩
  · rw [htry, tryWith]
    rcases hmiss v with ⟨y, rfl⟩ | h
    · exact absurd rfl (hv y)
    · rw [h.2.1]

/-- C30: `character`. -/
theorem C30_character : ExactAccess charAcc Value.character .character :=
  exactAccess (fun _ => rfl) (fun _ => rfl) (fun _ _ e => by injection e) (fun _ => ⟨rfl, rfl, fun _ => rfl⟩)
    (fun v => by
      cases v with
      | character => exact .inl ⟨_, rfl⟩
      | _ => exact .inr ⟨by simp [asTy], rfl, rfl, fun _ => rfl⟩) (fun _ => rfl)

/-- C30: `string`. -/
theorem C30_string : ExactAccess strAcc Value.string .string :=
  exactAccess (fun _ => rfl) (fun _ => rfl) (fun _ _ e => by injection e) (fun _ => ⟨rfl, rfl, fun _ => rfl⟩)
    (fun v => by
      cases v with
      | string => exact .inl ⟨_, rfl⟩
      | _ => exact .inr ⟨by simp [asTy], rfl, rfl, fun _ => rfl⟩) (fun _ => rfl)

/-- C30: `boolean`. -/
theorem C30_boolean : ExactAccess boolAcc Value.boolean .boolean :=
  exactAccess (fun _ => rfl) (fun _ => rfl) (fun _ _ e => by injection e) (fun _ => ⟨rfl, rfl, fun _ => rfl⟩)
    (fun v => by
      cases v with
      | boolean => exact .inl ⟨_, rfl⟩
      | _ => exact .inr ⟨by simp [asTy], rfl, rfl, fun _ => rfl⟩) (fun _ => rfl)

/-- C30: `integer`. -/
theorem C30_integer : ExactAccess intAcc Value.integer .integer :=
  exactAccess (fun _ => rfl) (fun _ => rfl) (fun _ _ e => by injection e) (fun _ => ⟨rfl, rfl, fun _ => rfl⟩)
    (fun v => by
      cases v with
      | integer => exact .inl ⟨_, rfl⟩
      | _ => exact .inr ⟨by simp [asTy], rfl, rfl, fun _ => rfl⟩) (fun _ => rfl)

/-- C30: `imaginary`. -/
theorem C30_imaginary : ExactAccess imaginaryAcc Value.imaginary .imaginary :=
  exactAccess (fun _ => rfl) (fun _ => rfl) (fun _ _ e => by injection e) (fun _ => ⟨rfl, rfl, fun _ => rfl⟩)
    (fun v => by
      cases v with
      | imaginary => exact .inl ⟨_, rfl⟩
      | _ => exact .inr ⟨by simp [asTy], rfl, rfl, fun _ => rfl⟩) (fun _ => rfl)

/-- C30: `timestamp`. -/
theorem C30_timestamp : ExactAccess timestampAcc Value.timestamp .timestamp :=
  exactAccess (fun _ => rfl) (fun _ => rfl) (fun _ _ e => by injection e) (fun _ => ⟨rfl, rfl, fun _ => rfl⟩)
    (fun v => by
      cases v with
      | timestamp => exact .inl ⟨_, rfl⟩
      | _ => exact .inr ⟨by simp [asTy], rfl, rfl, fun _ => rfl⟩) (fun _ => rfl)

/-- C30: `json`. -/
theorem C30_json : ExactAccess jsonAcc Value.json .json :=
  exactAccess (fun _ => rfl) (fun _ => rfl) (fun _ _ e => by injection e) (fun _ => ⟨rfl, rfl, fun _ => rfl⟩)
    (fun v => by
      cases v with
      | json => exact .inl ⟨_, rfl⟩
      | _ => exact .inr ⟨by simp [asTy], rfl, rfl, fun _ => rfl⟩) (fun _ => rfl)

/-- C30: `null`. -/
theorem C30_null : ExactAccess nullAcc (fun _ : Unit => Value.null) .null :=
  exactAccess (fun _ => rfl) (fun _ => rfl) (fun _ _ _ => rfl) (fun _ => ⟨rfl, rfl, fun _ => rfl⟩)
    (fun v => by
      cases v with
      | null => exact .inl ⟨(), rfl⟩
      | _ => exact .inr ⟨by simp [asTy], rfl, rfl, fun _ => rfl⟩) (fun _ => rfl)

/-- C30: `double`. -/
theorem C30_double : ExactAccess doubleAcc Value.double .doubleFloat :=
  exactAccess (fun _ => rfl) (fun _ => rfl) (fun _ _ e => by injection e) (fun _ => ⟨rfl, rfl, fun _ => rfl⟩)
    (fun v => by
      cases v with
      | double => exact .inl ⟨_, rfl⟩
      | _ => exact .inr ⟨by simp [asTy], rfl, rfl, fun _ => rfl⟩) (fun _ => rfl)

/-- C30: `single`. -/
theorem C30_single : ExactAccess singleAcc Value.single .singleFloat :=
  exactAccess (fun _ => rfl) (fun _ => rfl) (fun _ _ e => by injection e) (fun _ => ⟨rfl, rfl, fun _ => rfl⟩)
    (fun v => by
      cases v with
      | single => exact .inl ⟨_, rfl⟩
      | _ => exact .inr ⟨by simp [asTy], rfl, rfl, fun _ => rfl⟩) (fun _ => rfl)

/-- C30: `array`. -/
theorem C30_array : ExactAccess arrayAcc Value.array .array :=
  exactAccess (fun _ => rfl) (fun _ => rfl) (fun _ _ e => by injection e) (fun _ => ⟨rfl, rfl, fun _ => rfl⟩)
    (fun v => by
      cases v with
      | array => exact .inl ⟨_, rfl⟩
      | _ => exact .inr ⟨by simp [asTy], rfl, rfl, fun _ => rfl⟩) (fun _ => rfl)

/-- C30: `map`. -/
theorem C30_map : ExactAccess mapAcc Value.map .map :=
  exactAccess (fun _ => rfl) (fun _ => rfl) (fun _ _ e => by injection e) (fun _ => ⟨rfl, rfl, fun _ => rfl⟩)
    (fun v => by
      cases v with
      | map => exact .inl ⟨_, rfl⟩
      | _ => exact .inr ⟨by simp [asTy], rfl, rfl, fun _ => rfl⟩) (fun _ => rfl)

/-- C30: `timezone`. -/
theorem C30_timezone : ExactAccess tzAcc Value.timezone .timezone :=
  exactAccess (fun _ => rfl) (fun _ => rfl) (fun _ _ e => by injection e) (fun _ => ⟨rfl, rfl, fun _ => rfl⟩)
    (fun v => by
      cases v with
      | timezone => exact .inl ⟨_, rfl⟩
      | _ => exact .inr ⟨by simp [asTy], rfl, rfl, fun _ => rfl⟩) (fun _ => rfl)

/-- C30: `ipv4`. -/
theorem C30_ipv4 : ExactAccess ipv4Acc (fun (x0, x1, x2, x3) => Value.ipv4 x0 x1 x2 x3) .ipv4Addr :=
  exactAccess (fun _ => rfl) (fun _ => rfl) (fun _ _ e => by simp only [Value.ipv4.injEq] at e; simp only [Prod.ext_iff]; exact e) (fun _ => ⟨rfl, rfl, fun _ => rfl⟩)
    (fun v => by
      cases v with
      | ipv4 => exact .inl ⟨(_, _, _, _), rfl⟩
      | _ => exact .inr ⟨by simp [asTy], rfl, rfl, fun _ => rfl⟩) (fun _ => rfl)

/-- C30: `ipv6`. -/
theorem C30_ipv6 : ExactAccess ipv6Acc (fun (x0, x1, x2, x3, x4, x5, x6, x7) => Value.ipv6 x0 x1 x2 x3 x4 x5 x6 x7) .ipv6Addr :=
  exactAccess (fun _ => rfl) (fun _ => rfl) (fun _ _ e => by simp only [Value.ipv6.injEq] at e; simp only [Prod.ext_iff]; exact e) (fun _ => ⟨rfl, rfl, fun _ => rfl⟩)
    (fun v => by
      cases v with
      | ipv6 => exact .inl ⟨(_, _, _, _, _, _, _, _), rfl⟩
      | _ => exact .inr ⟨by simp [asTy], rfl, rfl, fun _ => rfl⟩) (fun _ => rfl)

/-- C30: `binary`. -/
theorem C30_binary : ExactAccess binaryAcc Value.binary .binary :=
  exactAccess (fun _ => rfl) (fun _ => rfl) (fun _ _ e => by injection e) (fun _ => ⟨rfl, rfl, fun _ => rfl⟩)
    (fun v => by
      cases v with
      | binary => exact .inl ⟨_, rfl⟩
      | _ => exact .inr ⟨by simp [asTy], rfl, rfl, fun _ => rfl⟩) (fun _ => rfl)

/-- C30: extracting a native integer from a value built from the same type returns it. -/
theorem C30_native {k : Nat} (hk : Width k) :
    (∀ n, IsUnsigned k n → toUnsigned k (ofUnsigned k n) = .ok n) ∧
    (∀ n, IsSigned k n → toSigned k (ofSigned k n) = .ok n) := by
  refine ⟨fun n hn => ?_, fun n hn => ?_⟩
  · show ((Integer.ofUnsigned k n).toUnsigned k).mapErr ValueSerError.integer = _
    rw [C01_unsigned_roundtrip hk hn]; rfl
  · show ((Integer.ofSigned k n).toSigned k).mapErr ValueSerError.integer = _
    rw [C01_signed_roundtrip hk hn]; rfl

/-- C30: extracting a native integer from anything but an integer reports both types. -/
theorem C30_native_mismatch (k : Nat) (v : Value) (h : ∀ i, v ≠ .integer i) :
    toUnsigned k v = .err (.unexpectedValueType v.asTy .integer) ∧
    toSigned k v = .err (.unexpectedValueType v.asTy .integer) := by
  simp only [toUnsigned, toSigned, C30_integer.mismatch v h]
  exact ⟨rfl, rfl⟩

example : intAcc.tryFrom (.array [.null]) = .err (.unexpectedValueType .array .integer) := rfl
example : toSigned 2 (ofSigned 2 (-300)) = .ok (-300) := by decide +kernel
example : arrayAcc.update (fun a => a ++ [.null]) (.array [.boolean true]) = some (.array [.boolean true, .null]) := rfl

end Souris
