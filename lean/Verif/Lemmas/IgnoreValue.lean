import Verif.Model.IgnoreValue
import Verif.Spec.IgnoreValue
import Verif.Lemmas.JsonValue

/-! # Skipping JSON values -/

namespace Souris.SerdeJson

/-! ## Numbers -/

theorem ignoreExponent_sound {cs rest : List Char} {x : Char} (hx : x = 'e' ∨ x = 'E') (h : ignoreExponent cs = some rest) :
    ∃ ex e, x :: cs = ex ++ rest ∧ JsonExponent ex e := by
  have key : ∀ cs' : List Char, (match cs' with
      | [] => none
      | c :: rest => if (digitOf c).isSome then some (eatDigits rest) else none) = some rest →
      ∃ ds, JsonDigits ds ∧ cs' = ds ++ rest := by
    intro cs' h
    cases cs' with
    | nil => cases h
    | cons c r =>
      simp only at h
      split at h
      · rename_i hc
        cases h
        obtain ⟨ds, e, hd⟩ := eatDigits_spec r
        refine ⟨c :: ds, ⟨by simp, ?_⟩, by rw [List.cons_append, ← e]⟩
        intro y hy
        rcases List.mem_cons.mp hy with rfl | hy
        · exact digitOf_isSome.mp hc
        · exact hd y hy
      · cases h
  unfold ignoreExponent at h
  cases cs with
  | nil => cases h
  | cons c r =>
    by_cases h1 : c = '+'
    · subst h1
      obtain ⟨ds, hd, e⟩ := key _ h
      exact ⟨x :: '+' :: ds, _, by rw [show r = ds ++ rest from e]; rfl, .plus hx hd⟩
    by_cases h2 : c = '-'
    · subst h2
      obtain ⟨ds, hd, e⟩ := key _ h
      exact ⟨x :: '-' :: ds, _, by rw [show r = ds ++ rest from e]; rfl, .minus hx hd⟩
    have : ¬ ((c :: r).head? = some '+' ∨ (c :: r).head? = some '-') := by simp [h1, h2]
    simp only [if_neg this] at h
    obtain ⟨ds, hd, e⟩ := key (c :: r) h
    exact ⟨x :: ds, _, by rw [e]; rfl, .plain hx hd⟩

theorem ignoreExponent_complete {x : Char} {ex rest : List Char} {e : Int} (h : JsonExponent (x :: ex) e) (hr : NoDigit rest) :
    (x = 'e' ∨ x = 'E') ∧ ignoreExponent (ex ++ rest) = some rest := by
  have key : ∀ ds : List Char, JsonDigits ds → (match ds ++ rest with
      | [] => none
      | c :: rest => if (digitOf c).isSome then some (eatDigits rest) else none) = some rest := by
    intro ds hd
    cases ds with
    | nil => exact absurd rfl hd.1
    | cons c r =>
      simp only [List.cons_append]
      rw [if_pos (digitOf_isSome.mpr (hd.2 c (by simp))), eatDigits_eq (fun c hc => hd.2 c (by simp [hc])) hr]
  cases h with
  | plain hc h =>
    refine ⟨hc, ?_⟩
    cases ex with
    | nil => exact absurd rfl h.1
    | cons c r =>
      have hd := h.2 c (by simp)
      have : ¬ ((c :: r ++ rest).head? = some '+' ∨ (c :: r ++ rest).head? = some '-') := by
        simp only [List.cons_append, List.head?_cons, Option.some.injEq]
        rintro (rfl | rfl) <;> exact absurd hd (by decide)
      unfold ignoreExponent
      simp only [if_neg this]
      exact key _ h
  | plus hc h => exact ⟨hc, key _ h⟩
  | minus hc h => exact ⟨hc, key _ h⟩

/-- An exponent or none, and the text behind it. -/
theorem ignoreMaybe_sound {cs rest : List Char} (h : (match cs with
      | [] => some []
      | c :: rest => if c = 'e' ∨ c = 'E' then ignoreExponent rest else some (c :: rest)) = some rest) :
    ∃ ex e, cs = ex ++ rest ∧ JsonExponent ex e := by
  cases cs with
  | nil => cases h; exact ⟨[], 0, rfl, .none⟩
  | cons c r =>
    simp only at h
    split at h
    · exact ignoreExponent_sound ‹_› h
    · cases h; exact ⟨[], 0, rfl, .none⟩

theorem ignoreMaybe_complete {ex rest : List Char} {e : Int} (h : JsonExponent ex e) (hr : Stops rest) : (match ex ++ rest with
      | [] => some []
      | c :: rest => if c = 'e' ∨ c = 'E' then ignoreExponent rest else some (c :: rest)) = some rest := by
  cases ex with
  | nil =>
    cases rest with
    | nil => rfl
    | cons c r =>
      have := hr c rfl
      simp only [List.nil_append]
      rw [if_neg (by rintro (h | h); exact this.2.2.1 h; exact this.2.2.2 h)]
  | cons x ex =>
    obtain ⟨hx, h⟩ := ignoreExponent_complete h hr.noDigit
    simp only [List.cons_append]
    rw [if_pos hx, h]

theorem ignoreDecimal_eq (c : Char) (rest : List Char) (h : (digitOf c).isSome) : ignoreDecimal (c :: rest) =
    (match eatDigits rest with
      | [] => some []
      | c :: rest => if c = 'e' ∨ c = 'E' then ignoreExponent rest else some (c :: rest)) := by
  simp only [ignoreDecimal, h, if_true]
  rfl

theorem ignoreNumberEnd_sound {cs rest : List Char} (h : ignoreNumberEnd cs = some rest) :
    ∃ fr ex frac e, cs = fr ++ ex ++ rest ∧ JsonFraction fr frac ∧ JsonExponent ex e := by
  cases cs with
  | nil => cases h; exact ⟨[], [], [], 0, rfl, .inl ⟨rfl, rfl⟩, .none⟩
  | cons c r =>
    simp only [ignoreNumberEnd] at h
    split at h
    · rename_i hc
      subst hc
      cases r with
      | nil => cases h
      | cons d r =>
        by_cases hd : (digitOf d).isSome
        · rw [ignoreDecimal_eq d r hd] at h
          obtain ⟨ex, e, h1, h2⟩ := ignoreMaybe_sound h
          obtain ⟨ds, h3, h4⟩ := eatDigits_spec r
          refine ⟨'.' :: d :: ds, ex, d :: ds, e, ?_, .inr ⟨⟨by simp, ?_⟩, rfl⟩, h2⟩
          · rw [h3, h1]
            simp
          · intro y hy
            rcases List.mem_cons.mp hy with rfl | hy
            · exact digitOf_isSome.mp hd
            · exact h4 y hy
        · simp only [ignoreDecimal, hd] at h
          cases h
    · split at h
      · obtain ⟨ex, e, h1, h2⟩ := ignoreExponent_sound ‹_› h
        exact ⟨[], ex, [], e, h1, .inl ⟨rfl, rfl⟩, h2⟩
      · cases h; exact ⟨[], [], [], 0, rfl, .inl ⟨rfl, rfl⟩, .none⟩

theorem exponent_noDigit {ex rest : List Char} {e : Int} (h : JsonExponent ex e) (hr : Stops rest) : NoDigit (ex ++ rest) := by
  cases h with
  | none => exact hr.noDigit
  | plain hc h => intro c e; cases e; rcases hc with rfl | rfl <;> decide
  | plus hc h => intro c e; cases e; rcases hc with rfl | rfl <;> decide
  | minus hc h => intro c e; cases e; rcases hc with rfl | rfl <;> decide

theorem ignoreNumberEnd_complete {fr frac ex rest : List Char} {e : Int} (hf : JsonFraction fr frac) (he : JsonExponent ex e) (hr : Stops rest) :
    ignoreNumberEnd (fr ++ (ex ++ rest)) = some rest := by
  rcases hf with ⟨rfl, rfl⟩ | ⟨hd, rfl⟩
  · cases ex with
    | nil =>
      cases rest with
      | nil => rfl
      | cons c r =>
        have := hr c rfl
        simp only [ignoreNumberEnd, List.nil_append]
        rw [if_neg this.2.1, if_neg (by rintro (h | h); exact this.2.2.1 h; exact this.2.2.2 h)]
    | cons x ex =>
      obtain ⟨hx, h⟩ := ignoreExponent_complete he hr.noDigit
      simp only [ignoreNumberEnd, List.nil_append, List.cons_append]
      rw [if_neg (by rintro rfl; rcases hx with h | h <;> cases h), if_pos hx, h]
  · cases frac with
    | nil => exact absurd rfl hd.1
    | cons d ds =>
      simp only [ignoreNumberEnd, List.cons_append, if_true]
      rw [ignoreDecimal_eq _ _ (digitOf_isSome.mpr (hd.2 d (by simp))), eatDigits_eq (fun c hc => hd.2 c (by simp [hc])) (exponent_noDigit he hr)]
      exact ignoreMaybe_complete he hr

theorem ignoreInteger_sound {cs rest : List Char} (h : ignoreInteger cs = some rest) :
    ∃ t int frac e, cs = t ++ rest ∧ JsonReal t int frac e := by
  cases cs with
  | nil => cases h
  | cons c r =>
    unfold ignoreInteger at h
    simp only at h
    split at h
    · cases h
    · rename_i hc
      obtain ⟨hc, h0⟩ := digitOf_mem hc
      have h0 : c = '0' := by
        have : ∀ c ∈ decimalDigits, 0 = decimalDigits.idxOf c → c = '0' := by decide
        exact this c hc h0
      subst h0
      have h : ignoreNumberEnd r = some rest := by
        cases r with
        | nil => exact h
        | cons c' r =>
          simp only at h
          split at h
          · cases h
          · exact h
      obtain ⟨fr, ex, frac, e, h1, h2, h3⟩ := ignoreNumberEnd_sound h
      refine ⟨'0' :: (fr ++ ex), ['0'], frac, e, by rw [h1]; simp, fr, ex, by simp, ⟨⟨by simp, ?_⟩, fun _ => rfl⟩, h2, h3⟩
      intro y hy
      rw [List.mem_singleton.mp hy]
      exact hc
    · rename_i n hc
      obtain ⟨hc, h0⟩ := digitOf_mem hc
      obtain ⟨ds, h3, h4⟩ := eatDigits_spec r
      obtain ⟨fr, ex, frac, e, h1, h2, h5⟩ := ignoreNumberEnd_sound h
      refine ⟨c :: (ds ++ (fr ++ ex)), c :: ds, frac, e, ?_, fr, ex, by simp, ⟨⟨by simp, ?_⟩, ?_⟩, h2, h5⟩
      · rw [h3, h1]
        simp
      · intro y hy
        rcases List.mem_cons.mp hy with rfl | hy
        · exact hc
        · exact h4 y hy
      · intro e
        cases e
        have : decimalDigits.idxOf '0' = 0 := by decide
        omega

theorem ignoreInteger_complete {t int frac rest : List Char} {e : Int} (h : JsonReal t int frac e) (hr : Stops rest) :
    ignoreInteger (t ++ rest) = some rest := by
  obtain ⟨fr, ex, rfl, ⟨hw, h0⟩, hf, he⟩ := h
  have hn : NoDigit (fr ++ (ex ++ rest)) := by
    rcases hf with ⟨rfl, rfl⟩ | ⟨hd, rfl⟩
    · simpa using exponent_noDigit he hr
    · intro c e; cases e; decide
  have hend := ignoreNumberEnd_complete hf he hr
  cases int with
  | nil => exact absurd rfl hw.1
  | cons c cs =>
    have hc := hw.2 c (by simp)
    have e1 : (c :: cs) ++ fr ++ ex ++ rest = c :: (cs ++ (fr ++ (ex ++ rest))) := by simp
    rw [e1]
    unfold ignoreInteger
    simp only [digitOf_of_mem hc]
    by_cases hz : c = '0'
    · subst hz
      cases h0 rfl
      have : decimalDigits.idxOf '0' = 0 := by decide
      simp only [this, List.nil_append]
      cases hx : fr ++ (ex ++ rest) with
      | nil => rw [hx] at hend; exact hend
      | cons c' r =>
        simp only
        rw [hx] at hend hn
        rw [if_neg (by rw [digitOf_none (hn c' rfl)]; decide)]
        exact hend
    · obtain ⟨n, hn'⟩ : ∃ n, decimalDigits.idxOf c = n + 1 := by
        cases hi : decimalDigits.idxOf c with
        | zero =>
          have : ∀ c ∈ decimalDigits, decimalDigits.idxOf c = 0 → c = '0' := by decide
          exact absurd (this c hc hi) hz
        | succ n => exact ⟨n, rfl⟩
      simp only [hn']
      rw [eatDigits_eq (fun x hx => hw.2 x (by simp [hx])) hn]
      exact hend

/-! ## Strings -/

theorem ignoreEscape_sound {cs rest : List Char} (h : ignoreEscape cs = some rest) :
    ∃ u, cs = u ++ rest ∧ ∀ t, LooseChars t → LooseChars ('\\' :: (u ++ t)) := by
  cases cs with
  | nil => cases h
  | cons c r =>
    simp only [ignoreEscape] at h
    split at h
    · rename_i hc
      cases h
      have : ∃ n, (c, n) ∈ escapeTable := by
        have : ∀ c ∈ ['"', '\\', '/', 'b', 'f', 'n', 'r', 't'], ∃ p ∈ escapeTable, p.1 = c := by decide
        obtain ⟨⟨x, n⟩, h1, h2⟩ := this c hc
        exact ⟨n, by rw [← show x = c from h2]; exact h1⟩
      obtain ⟨n, hn⟩ := this
      exact ⟨[c], rfl, fun t ht => .short hn ht⟩
    · split at h
      · rename_i hc
        subst hc
        cases hx : hex4 r with
        | none => rw [hx] at h; cases h
        | some p =>
          rw [hx] at h
          cases h
          obtain ⟨u, e, hu, _⟩ := hex4_sound (n := p.1) (rest := p.2) hx
          exact ⟨'u' :: u, by rw [e]; rfl, fun t ht => .unit hu ht⟩
      · cases h

theorem ignoreStr_sound {fuel : Nat} {cs rest : List Char} (h : ignoreStr fuel cs = some rest) :
    ∃ t, cs = t ++ '"' :: rest ∧ LooseChars t := by
  induction fuel generalizing cs with
  | zero => cases h
  | succ fuel ih =>
    cases cs with
    | nil => cases h
    | cons c r =>
      simp only [ignoreStr] at h
      split at h
      · rename_i hc
        cases h
        exact ⟨[], by rw [hc]; rfl, .nil⟩
      rename_i h1
      split at h
      · rename_i hc
        cases hx : ignoreEscape r with
        | none => rw [hx] at h; cases h
        | some r' =>
          rw [hx] at h
          obtain ⟨u, e, hu⟩ := ignoreEscape_sound hx
          obtain ⟨t, e', ht⟩ := ih h
          exact ⟨'\\' :: (u ++ t), by rw [hc, e, e']; simp, hu t ht⟩
      rename_i h2
      split at h
      · cases h
      · rename_i h3
        obtain ⟨t, e, ht⟩ := ih h
        exact ⟨c :: t, by rw [e]; rfl, .plain h1 h2 (by omega) ht⟩

theorem ignoreStr_complete {t : List Char} (h : LooseChars t) {fuel : Nat} (hf : t.length + 1 ≤ fuel) (rest : List Char) :
    ignoreStr fuel (t ++ '"' :: rest) = some rest := by
  induction h generalizing fuel with
  | nil =>
    obtain ⟨k, rfl⟩ : ∃ k, fuel = k + 1 := ⟨fuel - 1, by simp at hf; omega⟩
    simp [ignoreStr]
  | plain h1 h2 h3 h ih =>
    obtain ⟨k, rfl⟩ : ∃ k, fuel = k + 1 := ⟨fuel - 1, by simp at hf; omega⟩
    simp only [List.cons_append, ignoreStr]
    rw [if_neg h1, if_neg h2, if_neg (by omega)]
    exact ih (by simp at hf; omega)
  | @short x n t hx h ih =>
    obtain ⟨k, rfl⟩ : ∃ k, fuel = k + 1 := ⟨fuel - 1, by simp at hf; omega⟩
    have : x ∈ ['"', '\\', '/', 'b', 'f', 'n', 'r', 't'] := by
      have : ∀ p ∈ escapeTable, p.1 ∈ ['"', '\\', '/', 'b', 'f', 'n', 'r', 't'] := by decide
      exact this _ hx
    simp only [List.cons_append, ignoreStr]
    rw [if_neg (by decide), if_pos trivial]
    simp only [ignoreEscape, if_pos this]
    exact ih (by simp at hf; omega)
  | @unit u t n hu h ih =>
    obtain ⟨k, rfl⟩ : ∃ k, fuel = k + 1 := ⟨fuel - 1, by simp at hf; omega⟩
    simp only [List.cons_append, ignoreStr, List.append_assoc]
    rw [if_neg (by decide), if_pos trivial]
    have : ignoreEscape ('u' :: (u ++ (t ++ '"' :: rest))) = some (t ++ '"' :: rest) := by
      simp only [ignoreEscape]
      rw [if_neg (by decide), if_pos trivial, hex4_complete hu]
      rfl
    rw [this]
    exact ih (by simp at hf; omega)

/-! ## Keys -/

/-- What stands before a value inside of a bracket. -/
def Before (f : Char) (pre : List Char) : Prop :=
  if f = '{' then ∃ before kt mid inner, JsonBlank before ∧ LooseChars kt ∧ JsonBlank mid ∧ JsonBlank inner ∧
    pre = before ++ '"' :: (kt ++ '"' :: (mid ++ ':' :: inner))
  else JsonBlank pre

theorem ignoreKey_sound {f : Char} {cs rest : List Char} (h : ignoreKey f cs = some rest) :
    ∃ pre, cs = pre ++ rest ∧ ∀ w, JsonBlank w → Before f (pre ++ w) := by
  unfold ignoreKey at h
  split at h
  · rename_i hf
    obtain ⟨w0, hw0, e0⟩ := skip_split cs
    cases hs : skip cs with
    | nil => rw [hs] at h; cases h
    | cons c r =>
      rw [hs] at h e0
      simp only at h
      split at h
      · rename_i hc
        cases hk : ignoreStr (r.length + 1) r with
        | none => rw [hk] at h; cases h
        | some r' =>
          rw [hk] at h
          obtain ⟨kt, e1, hkt⟩ := ignoreStr_sound hk
          obtain ⟨mid, hm, e2⟩ := colon_sound (show colon r' = some rest from h)
          refine ⟨w0 ++ '"' :: (kt ++ '"' :: (mid ++ [':'])), ?_, fun w hw => ?_⟩
          · rw [e0, hc, e1, e2]
            simp
          · unfold Before
            rw [if_pos hf]
            exact ⟨w0, kt, mid, w, hw0, hkt, hm, hw, by simp⟩
      · cases h
  · rename_i hf
    cases h
    refine ⟨[], rfl, fun w hw => ?_⟩
    unfold Before
    rw [if_neg hf]
    exact hw

theorem ignoreKey_complete {f : Char} {pre : List Char} (h : Before f pre) :
    ∃ w, JsonBlank w ∧ ∀ r, ignoreKey f (pre ++ r) = some (w ++ r) := by
  unfold Before at h
  split at h
  · rename_i hf
    obtain ⟨before, kt, mid, inner, h1, h2, h3, h4, rfl⟩ := h
    refine ⟨inner, h4, fun r => ?_⟩
    unfold ignoreKey
    rw [if_pos hf]
    have e : before ++ '"' :: (kt ++ '"' :: (mid ++ ':' :: inner)) ++ r = before ++ '"' :: (kt ++ '"' :: (mid ++ ':' :: (inner ++ r))) := by simp
    rw [e, skip_blank h1, skip_cons (by decide)]
    simp only [if_true]
    rw [ignoreStr_complete h2 (by simp)]
    exact colon_complete h3 _
  · rename_i hf
    refine ⟨pre, h, fun r => ?_⟩
    unfold ignoreKey
    rw [if_neg hf]

/-! ## Values -/

/-- A value inside of a bracket, with what stands around it. -/
def Item (f : Char) (t : List Char) : Prop := ∃ pre v post, Before f pre ∧ LooseDoc v ∧ JsonBlank post ∧ t = pre ++ (v ++ post)

def closing (f : Char) : Char := if f = '[' then ']' else '}'

theorem doc_of_items {f : Char} (hf : f = '[' ∨ f = '{') {ts : List (List Char)} (hne : ts ≠ []) (h : ∀ t ∈ ts, Item f t) :
    LooseDoc (f :: ([','].intercalate ts ++ [closing f])) := by
  rcases hf with rfl | rfl
  · have : ∃ es : List (List Char × List Char × List Char), (∀ e ∈ es, JsonBlank e.1 ∧ JsonBlank e.2.2) ∧ (∀ e ∈ es, LooseDoc e.2.1) ∧
        ts = es.map fun e => e.1 ++ (e.2.1 ++ e.2.2) := by
      clear hne
      induction ts with
      | nil => exact ⟨[], by simp, by simp, rfl⟩
      | cons t ts ih =>
        obtain ⟨es, h1, h2, rfl⟩ := ih fun t ht => h t (by simp [ht])
        obtain ⟨pre, v, post, h3, h4, h5, rfl⟩ := h t (by simp)
        refine ⟨(pre, v, post) :: es, ?_, ?_, rfl⟩
        · intro e he
          rcases List.mem_cons.mp he with rfl | he
          · exact ⟨h3, h5⟩
          · exact h1 e he
        · intro e he
          rcases List.mem_cons.mp he with rfl | he
          · exact h4
          · exact h2 e he
    obtain ⟨es, h1, h2, rfl⟩ := this
    exact .array (by simpa using hne) h1 h2
  · have : ∃ ms : List MemberText, (∀ m ∈ ms, m.Loose) ∧ (∀ m ∈ ms, LooseDoc m.value) ∧ ts = ms.map MemberText.whole := by
      clear hne
      induction ts with
      | nil => exact ⟨[], by simp, by simp, rfl⟩
      | cons t ts ih =>
        obtain ⟨es, h1, h2, rfl⟩ := ih fun t ht => h t (by simp [ht])
        obtain ⟨pre, v, post, ⟨before, kt, mid, inner, k1, k2, k3, k4, rfl⟩, h4, h5, rfl⟩ := h t (by simp)
        refine ⟨⟨before, kt, [], mid, inner, v, post⟩ :: es, ?_, ?_, by simp [MemberText.whole]⟩
        · intro e he
          rcases List.mem_cons.mp he with rfl | he
          · exact ⟨k1, k2, k3, k4, h5⟩
          · exact h1 e he
        · intro e he
          rcases List.mem_cons.mp he with rfl | he
          · exact h4
          · exact h2 e he
    obtain ⟨es, h1, h2, rfl⟩ := this
    exact .object (by simpa using hne) h1 h2

/-- What may stand between a place inside of a bracket and its end: behind a value, or behind the bracket. -/
def Inside (f : Char) : Bool → List Char → Prop
  | true, b => ∃ (w : List Char) (ts : List (List Char)), JsonBlank w ∧ (∀ t ∈ ts, Item f t) ∧ b = w ++ ts.flatMap (',' :: ·)
  | false, b => JsonBlank b ∨ ∃ ts : List (List Char), ts ≠ [] ∧ (∀ t ∈ ts, Item f t) ∧ b = [','].intercalate ts

/-- What closes all the brackets. -/
inductive Closes : List Char → List Char → Prop
  | nil : Closes [] []
  | cons {f : Char} {st b t : List Char} (hb : Inside f true b) (h : Closes st t) : Closes (f :: st) (b ++ closing f :: t)

theorem doc_of_inside {f : Char} (hf : f = '[' ∨ f = '{') {b : List Char} (h : Inside f false b) : LooseDoc (f :: (b ++ [closing f])) := by
  rcases h with h | ⟨ts, hne, h, rfl⟩
  · rcases hf with rfl | rfl
    · exact .emptyArray h
    · exact .emptyObject h
  · exact doc_of_items hf hne h

theorem inside_first {f : Char} {pre v b : List Char} (hp : Before f pre) (hv : LooseDoc v) (hb : Inside f true b) :
    Inside f false (pre ++ (v ++ b)) := by
  obtain ⟨w, ts, hw, ht, rfl⟩ := hb
  refine .inr ⟨(pre ++ (v ++ w)) :: ts, by simp, ?_, ?_⟩
  · intro t h
    rcases List.mem_cons.mp h with rfl | h
    · exact ⟨pre, v, w, hp, hv, hw, rfl⟩
    · exact ht t h
  · rw [intercalate_cons]
    simp

theorem inside_next {f : Char} {w pre v b : List Char} (hw : JsonBlank w) (hp : Before f pre) (hv : LooseDoc v) (hb : Inside f true b) :
    Inside f true (w ++ ',' :: (pre ++ (v ++ b))) := by
  obtain ⟨w', ts, hw', ht, rfl⟩ := hb
  refine ⟨w, (pre ++ (v ++ w')) :: ts, hw, ?_, by simp⟩
  intro t h
  rcases List.mem_cons.mp h with rfl | h
  · exact ⟨pre, v, w', hp, hv, hw', rfl⟩
  · exact ht t h

theorem ignore_sound (fuel : Nat) :
    (∀ st cs rest, (∀ f ∈ st, f = '[' ∨ f = '{') → ignoreLoop fuel st cs = some rest →
      ∃ w v t, JsonBlank w ∧ LooseDoc v ∧ Closes st t ∧ cs = w ++ (v ++ (t ++ rest))) ∧
    (∀ f st ac cs rest, (∀ g ∈ f :: st, g = '[' ∨ g = '{') → ignoreAfter fuel ac (f :: st) cs = some rest →
      ∃ b t, Inside f ac b ∧ Closes st t ∧ cs = b ++ closing f :: (t ++ rest)) := by
  induction fuel with
  | zero => exact ⟨fun _ _ _ _ h => by simp [ignoreLoop] at h, fun _ _ _ _ _ _ h => by simp [ignoreAfter] at h⟩
  | succ fuel ih =>
    obtain ⟨ihl, iha⟩ := ih
    have after : ∀ st cs rest, (∀ f ∈ st, f = '[' ∨ f = '{') → ignoreAfter fuel true st cs = some rest →
        ∃ t, Closes st t ∧ cs = t ++ rest := by
      intro st cs rest hst h
      cases st with
      | nil =>
        cases fuel with
        | zero => simp [ignoreAfter] at h
        | succ fuel =>
          simp only [ignoreAfter, Option.some.injEq] at h
          exact ⟨[], .nil, by rw [h]; rfl⟩
      | cons f st =>
        obtain ⟨b, t, h1, h2, h3⟩ := iha f st true cs rest hst h
        exact ⟨b ++ closing f :: t, .cons h1 h2, by rw [h3]; simp⟩
    constructor
    · intro st cs rest hst h
      obtain ⟨w, hw, e⟩ := skip_split cs
      rw [ignoreLoop] at h
      cases hs : skip cs with
      | nil => rw [hs] at h; cases h
      | cons c r =>
        rw [hs] at h e
        simp only at h
        have scalar : ∀ {o : Option (List Char)}, o.bind (ignoreAfter fuel true st) = some rest →
            (∀ r', o = some r' → ∃ v, LooseDoc v ∧ c :: r = v ++ r') →
            ∃ w v t, JsonBlank w ∧ LooseDoc v ∧ Closes st t ∧ cs = w ++ (v ++ (t ++ rest)) := by
          intro o ho hv
          cases o with
          | none => cases ho
          | some r' =>
            obtain ⟨t, ht, e'⟩ := after st r' rest hst ho
            obtain ⟨v, hv, e''⟩ := hv r' rfl
            exact ⟨w, v, t, hw, hv, ht, by rw [e, e'', e']⟩
        split at h
        · rename_i hc
          exact scalar h fun r' h' => ⟨_, .null, by rw [hc, ident_sound h']; rfl⟩
        split at h
        · rename_i hc
          exact scalar h fun r' h' => ⟨_, .true, by rw [hc, ident_sound h']; rfl⟩
        split at h
        · rename_i hc
          exact scalar h fun r' h' => ⟨_, .false, by rw [hc, ident_sound h']; rfl⟩
        split at h
        · rename_i hc
          refine scalar h fun r' h' => ?_
          obtain ⟨t, int, frac, x, e1, h1⟩ := ignoreInteger_sound h'
          exact ⟨'-' :: t, .neg h1, by rw [hc, e1]; rfl⟩
        split at h
        · refine scalar h fun r' h' => ?_
          obtain ⟨t, int, frac, x, e1, h1⟩ := ignoreInteger_sound h'
          exact ⟨t, .pos h1, e1⟩
        split at h
        · rename_i hc
          refine scalar h fun r' h' => ?_
          obtain ⟨t, e1, h1⟩ := ignoreStr_sound h'
          exact ⟨'"' :: (t ++ ['"']), .string h1, by rw [hc, e1]; simp⟩
        split at h
        · rename_i hc
          have hst' : ∀ g ∈ c :: st, g = '[' ∨ g = '{' := by
            intro g hg
            rcases List.mem_cons.mp hg with rfl | hg
            · exact hc
            · exact hst g hg
          obtain ⟨b, t, h1, h2, h3⟩ := iha c st false r rest hst' h
          exact ⟨w, c :: (b ++ [closing c]), t, hw, doc_of_inside hc h1, h2, by rw [e, h3]; simp⟩
        · cases h
    · intro f st ac cs rest hst h
      obtain ⟨w, hw, e⟩ := skip_split cs
      rw [ignoreAfter] at h
      have below : ∀ g ∈ st, g = '[' ∨ g = '{' := fun g hg => hst g (by simp [hg])
      have item : ∀ {cs' : List Char}, (ignoreKey f cs').bind (ignoreLoop fuel (f :: st)) = some rest →
          ∃ pre v b t, Before f pre ∧ LooseDoc v ∧ Inside f true b ∧ Closes st t ∧ cs' = pre ++ (v ++ (b ++ closing f :: (t ++ rest))) := by
        intro cs' h'
        cases hk : ignoreKey f cs' with
        | none => rw [hk] at h'; cases h'
        | some r =>
          rw [hk] at h'
          obtain ⟨pre, e1, hp⟩ := ignoreKey_sound hk
          obtain ⟨w', v, t, hw', hv, ht, e2⟩ := ihl (f :: st) r rest hst h'
          cases ht with
          | @cons _ _ b t hb ht =>
            exact ⟨pre ++ w', v, b, t, hp w' hw', hv, hb, ht, by rw [e1, e2]; simp⟩
      cases hs : skip cs with
      | nil => rw [hs] at h; cases h
      | cons c r =>
        rw [hs] at h e
        simp only at h
        split at h
        · rename_i hc
          obtain ⟨rfl, rfl⟩ := hc
          obtain ⟨pre, v, b, t, h1, h2, h3, h4, h5⟩ := item h
          exact ⟨_, t, inside_next hw h1 h2 h3, h4, by rw [e, h5]; simp⟩
        split at h
        · rename_i hc
          obtain ⟨t, ht, e'⟩ := after st r rest below h
          have hcl : c = closing f := by
            rcases hc with ⟨rfl, rfl⟩ | ⟨rfl, rfl⟩ <;> rfl
          refine ⟨w, t, ?_, ht, by rw [e, e', hcl]⟩
          cases ac with
          | true => exact ⟨w, [], hw, by simp, by simp⟩
          | false => exact .inl hw
        split at h
        · cases h
        · rename_i hac
          cases ac with
          | true => exact absurd rfl hac
          | false =>
            obtain ⟨pre, v, b, t, h1, h2, h3, h4, h5⟩ := item h
            refine ⟨w ++ (pre ++ (v ++ b)), t, ?_, h4, by rw [e, h5]; simp⟩
            have : Before f (w ++ pre) := by
              unfold Before at h1 ⊢
              split at h1
              · rename_i hf
                rw [if_pos hf]
                obtain ⟨before, kt, mid, inner, k1, k2, k3, k4, rfl⟩ := h1
                exact ⟨w ++ before, kt, mid, inner, blank_append hw k1, k2, k3, k4, by simp⟩
              · rename_i hf
                rw [if_neg hf]
                exact blank_append hw h1
            simpa using inside_first this h2 h3

theorem ignoreValue_sound {cs rest : List Char} (h : ignoreValue cs = some rest) :
    ∃ w v, JsonBlank w ∧ cs = w ++ (v ++ rest) ∧ LooseDoc v := by
  obtain ⟨w, v, t, h1, h2, h3, h4⟩ := (ignore_sound _).1 [] cs rest (by simp) h
  cases h3
  exact ⟨w, v, h1, h4, h2⟩

/-! ## Everything of this form is skipped -/

theorem skip_skip (cs : List Char) : skip (skip cs) = skip cs := by
  obtain ⟨w, hw, e⟩ := skip_split cs
  conv_rhs => rw [e, skip_blank hw]

theorem loop_skip (fuel : Nat) (st cs : List Char) : ignoreLoop fuel st (skip cs) = ignoreLoop fuel st cs := by
  cases fuel with
  | zero => simp [ignoreLoop]
  | succ fuel => rw [ignoreLoop, ignoreLoop, skip_skip]

theorem key_skip (f : Char) (fuel : Nat) (st cs : List Char) :
    (ignoreKey f (skip cs)).bind (ignoreLoop fuel st) = (ignoreKey f cs).bind (ignoreLoop fuel st) := by
  unfold ignoreKey
  split
  · rw [skip_skip]
  · exact loop_skip fuel st cs

/-- The value is skipped in so many rounds. -/
def Skips (v : List Char) : Prop :=
  ∃ n, n ≤ 2 * v.length ∧ ∀ w r fuel stack, JsonBlank w → Stops r →
    ignoreLoop (fuel + n) stack (w ++ (v ++ r)) = ignoreAfter fuel true stack r

theorem real_begins {t int frac : List Char} {e : Int} (h : JsonReal t int frac e) : ∃ c cs, t = c :: cs ∧ c ∈ decimalDigits := by
  obtain ⟨fr, ex, rfl, hw, _⟩ := h
  cases int with
  | nil => exact absurd rfl hw.1.1
  | cons c cs => exact ⟨c, cs ++ fr ++ ex, by simp, hw.1.2 c (by simp)⟩

theorem loose_head {v : List Char} (h : LooseDoc v) : ∃ c cs, v = c :: cs ∧ ws c = false ∧ c ≠ ']' := by
  cases h with
  | pos h =>
    obtain ⟨c, cs, e, hc⟩ := real_begins h
    exact ⟨c, cs, e, (digit_head hc).1, (digit_head hc).2.1⟩
  | null => exact ⟨_, _, rfl, by decide, by decide⟩
  | true => exact ⟨_, _, rfl, by decide, by decide⟩
  | false => exact ⟨_, _, rfl, by decide, by decide⟩
  | neg h => exact ⟨_, _, rfl, by decide, by decide⟩
  | string h => exact ⟨_, _, rfl, by decide, by decide⟩
  | emptyArray h => exact ⟨_, _, rfl, by decide, by decide⟩
  | array h => exact ⟨_, _, rfl, by decide, by decide⟩
  | emptyObject h => exact ⟨_, _, rfl, by decide, by decide⟩
  | object h => exact ⟨_, _, rfl, by decide, by decide⟩

/-- An item whose value is skipped. -/
def SkipItem (f : Char) (t : List Char) : Prop :=
  ∃ pre v post, Before f pre ∧ LooseDoc v ∧ Skips v ∧ JsonBlank post ∧ t = pre ++ (v ++ post)

theorem after_close {f : Char} (hf : f = '[' ∨ f = '{') {w : List Char} (hw : JsonBlank w) (fuel : Nat) (ac : Bool) (st r : List Char) :
    ignoreAfter (fuel + 1) ac (f :: st) (w ++ closing f :: r) = ignoreAfter fuel true st r := by
  rw [ignoreAfter, skip_blank hw]
  rcases hf with rfl | rfl
  · rw [skip_cons (by decide)]
    simp only [show closing '[' = ']' from rfl]
    rw [if_neg (by rintro ⟨h, _⟩; cases h), if_pos (by simp)]
  · rw [skip_cons (by decide)]
    simp only [show closing '{' = '}' from rfl]
    rw [if_neg (by rintro ⟨h, _⟩; cases h), if_pos (by simp)]

theorem stops_items (ts : List (List Char)) {r : List Char} (hr : Stops r) : Stops (ts.flatMap (',' :: ·) ++ r) := by
  cases ts with
  | nil => exact hr
  | cons t ts => exact stops_cons (by decide) _

theorem after_items {f : Char} {ts : List (List Char)} (h : ∀ t ∈ ts, SkipItem f t) :
    ∃ n, n ≤ 2 * (ts.flatMap (',' :: ·)).length ∧ ∀ w r fuel st, JsonBlank w → Stops r →
      ∃ w', JsonBlank w' ∧ ignoreAfter (fuel + n) true (f :: st) (w ++ (ts.flatMap (',' :: ·) ++ r)) =
        ignoreAfter fuel true (f :: st) (w' ++ r) := by
  induction ts with
  | nil => exact ⟨0, by simp, fun w r fuel st hw _ => ⟨w, hw, by simp⟩⟩
  | cons t ts ih =>
    obtain ⟨n, hn, hts⟩ := ih fun t ht => h t (by simp [ht])
    obtain ⟨pre, v, post, hp, _, ⟨k, hk, hv⟩, hpost, rfl⟩ := h t (by simp)
    refine ⟨n + k + 1, ?_, fun w r fuel st hw hr => ?_⟩
    · simp only [List.flatMap_cons, List.length_append, List.length_cons]
      omega
    · obtain ⟨w1, hw1, hkey⟩ := ignoreKey_complete hp
      obtain ⟨w', hw', e⟩ := hts post r fuel st hpost hr
      refine ⟨w', hw', ?_⟩
      rw [← e]
      have e1 : w ++ (((pre ++ (v ++ post)) :: ts).flatMap (',' :: ·) ++ r) =
          w ++ ',' :: (pre ++ (v ++ (post ++ (ts.flatMap (',' :: ·) ++ r)))) := by simp
      rw [e1, show fuel + (n + k + 1) = (fuel + n + k) + 1 by omega, ignoreAfter, skip_blank hw, skip_cons (by decide)]
      simp only [and_self, if_true, hkey, Option.bind_some]
      exact hv w1 _ (fuel + n) (f :: st) hw1 (stops_blank hpost (stops_items ts hr))

theorem loop_bracket {f : Char} (hf : f = '[' ∨ f = '{') (fuel : Nat) {w : List Char} (hw : JsonBlank w) (st r : List Char) :
    ignoreLoop (fuel + 1) st (w ++ f :: r) = ignoreAfter fuel false (f :: st) r := by
  rw [ignoreLoop, skip_blank hw]
  rcases hf with rfl | rfl
  · rw [skip_cons (by decide)]
    simp only
    rw [if_neg (by decide), if_neg (by decide), if_neg (by decide), if_neg (by decide), if_neg (by decide), if_neg (by decide),
      if_pos (by simp)]
  · rw [skip_cons (by decide)]
    simp only
    rw [if_neg (by decide), if_neg (by decide), if_neg (by decide), if_neg (by decide), if_neg (by decide), if_neg (by decide),
      if_pos (by simp)]

/-- Before the first value stands something that does not close the bracket. -/
theorem before_head {f : Char} (hf : f = '[' ∨ f = '{') {pre v r : List Char} (hp : Before f pre) (hv : LooseDoc v) :
    ∃ c cs, skip (pre ++ (v ++ r)) = c :: cs ∧ ¬ ((c = ']' ∧ f = '[') ∨ (c = '}' ∧ f = '{')) := by
  rcases hf with rfl | rfl
  · obtain ⟨c, cs, rfl, h1, h2⟩ := loose_head hv
    refine ⟨c, cs ++ r, ?_, ?_⟩
    · rw [skip_blank (show JsonBlank pre from hp), List.cons_append, skip_cons h1]
    · rintro (⟨h, _⟩ | ⟨_, h⟩)
      · exact h2 h
      · cases h
  · obtain ⟨before, kt, mid, inner, h1, h2, h3, h4, rfl⟩ := hp
    refine ⟨'"', kt ++ '"' :: (mid ++ ':' :: inner) ++ (v ++ r), ?_, ?_⟩
    · rw [List.append_assoc, skip_blank h1, List.cons_append, skip_cons (by decide)]
    · rintro (⟨h, _⟩ | ⟨h, _⟩) <;> cases h

theorem skips_items {f : Char} (hf : f = '[' ∨ f = '{') {ts : List (List Char)} (hne : ts ≠ []) (h : ∀ t ∈ ts, SkipItem f t) :
    Skips (f :: ([','].intercalate ts ++ [closing f])) := by
  cases ts with
  | nil => exact absurd rfl hne
  | cons t ts =>
    obtain ⟨n, hn, hts⟩ := after_items fun t ht => h t (List.mem_cons_of_mem _ ht)
    obtain ⟨pre, v, post, hp, hd, ⟨k, hk, hv⟩, hpost, rfl⟩ := h t (by simp)
    refine ⟨n + k + 3, ?_, fun w r fuel st hw hr => ?_⟩
    · rw [intercalate_cons]
      simp only [List.length_append, List.length_cons, List.length_nil] at hn ⊢
      omega
    · have e1 : w ++ (f :: ([','].intercalate ((pre ++ (v ++ post)) :: ts) ++ [closing f]) ++ r) =
          w ++ f :: (pre ++ (v ++ (post ++ (ts.flatMap (',' :: ·) ++ closing f :: r)))) := by
        rw [intercalate_cons]
        simp
      have hcl : Stops (closing f :: r) := by
        rcases hf with rfl | rfl <;> exact stops_cons (by decide) _
      obtain ⟨w1, hw1, hkey⟩ := ignoreKey_complete hp
      obtain ⟨w', hw', e⟩ := hts post (closing f :: r) (fuel + 1) st hpost hcl
      rw [e1, show fuel + (n + k + 3) = (fuel + 1 + n + k + 1) + 1 by omega, loop_bracket hf _ hw, ← after_close hf hw' fuel true,
        ← e, ← hv w1 _ (fuel + 1 + n) (f :: st) hw1 (stops_blank hpost (stops_items ts hcl)), ignoreAfter]
      obtain ⟨c, cs, hs, hc⟩ := before_head hf (r := post ++ (ts.flatMap (',' :: ·) ++ closing f :: r)) hp hd
      rw [hs]
      simp only [Bool.false_eq_true, and_false, if_false]
      rw [if_neg hc, ← hs, key_skip, hkey]
      rfl

theorem skips {v : List Char} (h : LooseDoc v) : Skips v := by
  induction h with
  | null =>
    refine ⟨1, by decide, fun w r fuel st hw hr => ?_⟩
    have e : "null".toList ++ r = 'n' :: (['u', 'l', 'l'] ++ r) := rfl
    rw [ignoreLoop, skip_blank hw, e, skip_cons (by decide)]
    simp only [if_true, ident_complete, Option.bind_some]
  | true =>
    refine ⟨1, by decide, fun w r fuel st hw hr => ?_⟩
    have e : "true".toList ++ r = 't' :: (['r', 'u', 'e'] ++ r) := rfl
    rw [ignoreLoop, skip_blank hw, e, skip_cons (by decide)]
    simp only
    rw [if_neg (by decide), if_pos trivial, ident_complete]
    rfl
  | false =>
    refine ⟨1, by decide, fun w r fuel st hw hr => ?_⟩
    have e : "false".toList ++ r = 'f' :: (['a', 'l', 's', 'e'] ++ r) := rfl
    rw [ignoreLoop, skip_blank hw, e, skip_cons (by decide)]
    simp only
    rw [if_neg (by decide), if_neg (by decide), if_pos trivial, ident_complete]
    rfl
  | @pos t int frac x h =>
    obtain ⟨c, cs, rfl, hc⟩ := real_begins h
    refine ⟨1, by simp; omega, fun w r fuel st hw hr => ?_⟩
    have hd := digit_head hc
    have hi := ignoreInteger_complete h hr
    rw [List.cons_append] at hi ⊢
    rw [ignoreLoop, skip_blank hw, skip_cons hd.1]
    simp only
    rw [if_neg hd.2.2.2.2.1, if_neg hd.2.2.2.2.2.1, if_neg hd.2.2.2.2.2.2.1, if_neg hd.2.2.2.2.2.2.2, if_pos (digitOf_isSome.mpr hc), hi]
    rfl
  | @neg t int frac x h =>
    refine ⟨1, by simp; omega, fun w r fuel st hw hr => ?_⟩
    have hi := ignoreInteger_complete h hr
    rw [List.cons_append, ignoreLoop, skip_blank hw, skip_cons (by decide)]
    simp only
    rw [if_neg (by decide), if_neg (by decide), if_neg (by decide), if_pos trivial, hi]
    rfl
  | @string t h =>
    refine ⟨1, by simp; omega, fun w r fuel st hw hr => ?_⟩
    have e : '"' :: (t ++ ['"']) ++ r = '"' :: (t ++ '"' :: r) := by simp
    rw [e, ignoreLoop, skip_blank hw, skip_cons (by decide)]
    simp only
    rw [if_neg (by decide), if_neg (by decide), if_neg (by decide), if_neg (by decide), if_neg (by decide), if_pos trivial,
      ignoreStr_complete h (by simp)]
    rfl
  | @emptyArray w' h =>
    refine ⟨2, by simp, fun w r fuel st hw hr => ?_⟩
    have e : '[' :: (w' ++ [']']) ++ r = '[' :: (w' ++ closing '[' :: r) := by simp [closing]
    rw [e, loop_bracket (.inl rfl) _ hw, after_close (.inl rfl) h]
  | @emptyObject w' h =>
    refine ⟨2, by simp, fun w r fuel st hw hr => ?_⟩
    have e : '{' :: (w' ++ ['}']) ++ r = '{' :: (w' ++ closing '{' :: r) := by simp [closing]
    rw [e, loop_bracket (.inr rfl) _ hw, after_close (.inr rfl) h]
  | @array es hne hw h ih =>
    refine skips_items (f := '[') (.inl rfl) (by simpa using hne) fun t ht => ?_
    obtain ⟨e, he, rfl⟩ := List.mem_map.mp ht
    exact ⟨e.1, e.2.1, e.2.2, (hw e he).1, h e he, ih e he, (hw e he).2, rfl⟩
  | @object ms hne hw h ih =>
    refine skips_items (f := '{') (.inr rfl) (by simpa using hne) fun t ht => ?_
    obtain ⟨m, hm, rfl⟩ := List.mem_map.mp ht
    obtain ⟨k1, k2, k3, k4, k5⟩ := hw m hm
    exact ⟨m.before ++ '"' :: (m.keyText ++ '"' :: (m.middle ++ ':' :: m.inner)), m.value, m.after,
      ⟨m.before, m.keyText, m.middle, m.inner, k1, k2, k3, k4, rfl⟩, h m hm, ih m hm, k5, by simp [MemberText.whole]⟩

theorem ignoreValue_complete {v : List Char} (h : LooseDoc v) {w r : List Char} (hw : JsonBlank w) (hr : Stops r) :
    ignoreValue (w ++ (v ++ r)) = some r := by
  obtain ⟨n, hn, hv⟩ := skips h
  unfold ignoreValue
  have e : 2 * (w ++ (v ++ r)).length + 2 = (2 * w.length + 2 * (v.length) - n + 2 * r.length + 1) + 1 + n := by
    simp only [List.length_append]
    omega
  rw [e, hv w r _ [] hw hr, ignoreAfter]

end Souris.SerdeJson
