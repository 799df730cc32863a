import Verif.Lemmas.Display
import Verif.Lemmas.JsonPrint
import Verif.Spec.ErrorText

/-! Texts of errors: fixed beginnings tell the variants apart. -/

namespace Souris.Fault

/-- The texts differ at a place that both have. -/
def clash : Text → Text → Bool
  | a :: s, b :: t => if a = b then clash s t else true
  | _, _ => false

theorem clash_ne : ∀ {s t : Text} (r r' : Text), clash s t = true → s ++ r ≠ t ++ r'
  | [], _, _, _, h => by simp [clash] at h
  | _ :: _, [], _, _, h => by simp [clash] at h
  | a :: s, b :: t, r, r', h => by
    intro e
    simp only [List.cons_append, List.cons.injEq] at e
    rw [clash, if_pos e.1] at h
    exact clash_ne r r' h e.2

theorem say_ofList (a r : Text) : say (String.ofList a) r = a ++ r := by rw [say, String.toList_ofList]

/-- Stated for `String.ofList` so that literals need not be decoded. -/
theorem say_ne {a b r r' : Text} (h : clash a b = true) : say (String.ofList a) r ≠ say (String.ofList b) r' := by
  rw [say_ofList, say_ofList]
  exact clash_ne r r' h

theorem toList_ne {a b : Text} (h : a ≠ b) : (String.ofList a).toList ≠ (String.ofList b).toList := by
  rwa [String.toList_ofList, String.toList_ofList]

theorem toList_not_mem {a : Text} {c : Char} (h : c ∉ a) : c ∉ (String.ofList a).toList := by
  rwa [String.toList_ofList]

theorem say_inj {s : String} {r r' : Text} (h : say s r = say s r') : r = r' := List.append_cancel_left h

theorem wrap_inj {s : String} {r r' : Text} (h : wrap s r = wrap s r') : r = r' := List.append_cancel_right (say_inj h)

/-- Reads binary digits. -/
def unbin (t : Text) : Nat := t.foldl (fun n c => 2 * n + (if c = '1' then 1 else 0)) 0

theorem unbin_binText : ∀ n : Fin 256, unbin (binText 8 n.val) = n.val := by decide +kernel

theorem binByte_inj {a b : UInt8} (h : binByte a = binByte b) : a = b := by
  have e : binText 8 a.toNat = binText 8 b.toNat := by
    simpa [binByte] using h
  have ha := unbin_binText ⟨a.toNat, a.toNat_lt⟩
  have hb := unbin_binText ⟨b.toNat, b.toNat_lt⟩
  simp only at ha hb
  rw [e] at ha
  exact UInt8.toNat_inj.mp (ha.symm.trans hb)

theorem noDigit_nil : NoDigit [] := by
  intro c t e; cases e

theorem natText_inj' {n m : Nat} (h : natText n = natText m) : n = m :=
  (natText_cut noDigit_nil noDigit_nil (by simpa using h)).1

theorem decByte_inj {a b : UInt8} (h : decByte a = decByte b) : a = b := UInt8.toNat_inj.mp (natText_inj' h)

theorem leBytes_inj {m n : UInt32} (h : leBytes m = leBytes n) : m = n := by
  simp only [leBytes, List.cons.injEq, and_true] at h
  obtain ⟨h0, h1, h2, h3⟩ := h
  have g0 := congrArg UInt8.toNat h0
  have g1 := congrArg UInt8.toNat h1
  have g2 := congrArg UInt8.toNat h2
  have g3 := congrArg UInt8.toNat h3
  simp only [UInt8.toNat_ofNat'] at g0 g1 g2 g3
  have hm := m.toNat_lt
  have hn := n.toNat_lt
  apply UInt32.toNat_inj.mp
  omega

theorem sep_cut {c : Char} : ∀ {a b r r' : Text}, c ∉ a → c ∉ b → a ++ c :: r = b ++ c :: r' → a = b ∧ r = r'
  | [], [], _, _, _, _, h => ⟨rfl, by simpa using h⟩
  | [], y :: b, _, _, _, hb, h => by
    simp only [List.nil_append, List.cons_append, List.cons.injEq] at h
    exact absurd (by simp [h.1]) hb
  | x :: a, [], _, _, ha, _, h => by
    simp only [List.nil_append, List.cons_append, List.cons.injEq] at h
    exact absurd (by simp [h.1]) ha
  | x :: a, y :: b, r, r', ha, hb, h => by
    simp only [List.cons_append, List.cons.injEq] at h
    obtain ⟨e1, e2⟩ := sep_cut (fun m => ha (by simp [m])) (fun m => hb (by simp [m])) h.2
    exact ⟨by rw [h.1, e1], e2⟩

theorem tyName_comma (t : ValueTy) : ',' ∉ tyName t := by
  cases t <;> exact toList_not_mem (by decide +kernel)

theorem tyName_inj {a b : ValueTy} (h : tyName a = tyName b) : a = b := by
  cases a <;> cases b <;> first | rfl | (exact absurd h (toList_ne (by decide +kernel)))

theorem causeName_inj {a b : InvalidSourisTypeError} (h : causeName a = causeName b) : a = b := by
  cases a <;> cases b <;> first | rfl | (exact absurd h (toList_ne (by decide +kernel)))

theorem stateName_inj {a b : DeserStateError} (h : stateName a = stateName b) : a = b := by
  cases a <;> cases b <;> first | rfl | (exact absurd h (toList_ne (by decide +kernel)))

theorem tyName_cut {a b : ValueTy} {s : String} {t : Text} (hs : s.toList = ',' :: t) {r r' : Text}
    (h : tyName a ++ say s r = tyName b ++ say s r') : a = b ∧ r = r' := by
  rw [say, say, hs] at h
  obtain ⟨e1, e2⟩ := sep_cut (tyName_comma a) (tyName_comma b) h
  exact ⟨tyName_inj e1, List.append_cancel_left e2⟩

theorem binText_spec : ∀ n : Fin 256, binText 8 n.val ≠ [] ∧ (∀ c ∈ binText 8 n.val, c = '0' ∨ c = '1') ∧
    (binText 8 n.val).foldl (fun acc c => 2 * acc + ['0', '1'].idxOf c) 0 = n.val := by decide +kernel

theorem endsBinary (s : String) (b : UInt8) : EndsBinary (say s (binByte b)) b.toNat := by
  obtain ⟨h1, h2, h3⟩ := binText_spec ⟨b.toNat, b.toNat_lt⟩
  exact ⟨_, ⟨s.toList, rfl⟩, h1, h2, h3⟩

theorem endsDecimal {l : Text} (hl : l.getLast? = some ' ') (n : Nat) :
    EndsDecimal (say (String.ofList l) (natText n)) n := by
  obtain ⟨a, rfl⟩ := List.getLast?_eq_some_iff.mp hl
  refine ⟨natText n, ⟨a, ?_⟩, SerdeJson.whole_natText n, (natText_spec n).2.2⟩
  rw [say_ofList]
  simp

end Souris.Fault
