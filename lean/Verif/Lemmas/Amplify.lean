import Verif.Spec.Size
import Verif.Lemmas.Value
import Verif.Lemmas.ValueEq

/-! # How much a parser returns for the bytes it reads -/

namespace Souris

open Value

variable {ε ε' α β : Type}

/-- A successful run does not move backwards and returns at most `255` units for every byte read, and `k`. -/
def Within (k : Nat) (f : α → Nat) (p : Parser ε α) : Prop :=
  ∀ c x c', p c = .ok (x, c') → c.pos ≤ c'.pos ∧ f x + 255 * c.pos ≤ 255 * c'.pos + k

namespace Within

theorem mono {k m : Nat} {f : α → Nat} {p : Parser ε α} (h : Within k f p) (hm : k ≤ m) : Within m f p := by
  intro c x c' e
  obtain ⟨h1, h2⟩ := h c x c' e
  exact ⟨h1, by omega⟩

theorem pure {k : Nat} {f : α → Nat} {x : α} (h : f x ≤ k) : Within k f (Pure.pure x : Parser ε α) := by
  intro c y c' e
  simp only [Parser.pure_apply, Out.ok.injEq, Prod.mk.injEq] at e
  rw [← e.1, ← e.2]
  exact ⟨Nat.le_refl _, by omega⟩

theorem lift {k : Nat} {f : α → Nat} {o : Out ε α} (h : ∀ x, o = .ok x → f x ≤ k) : Within k f (Parser.lift o) := by
  intro c y c' e
  cases o with
  | ok x =>
    have := h x rfl
    simp at e
    rw [← e.1, ← e.2]
    exact ⟨Nat.le_refl _, by omega⟩
  | err _ => simp at e
  | panic _ => simp at e

theorem fail (k : Nat) (f : α → Nat) (e : ε) : Within k f (Parser.fail e : Parser ε α) := by
  intro c y c' h; simp at h

theorem crash (k : Nat) (f : α → Nat) (r : Panic) : Within k f (Parser.crash r : Parser ε α) := by
  intro c y c' h; simp at h

theorem mapErr {k : Nat} {f : α → Nat} {p : Parser ε α} (g : ε → ε') (h : Within k f p) : Within k f (p.mapErr g) := by
  intro c x c' e
  rw [Parser.mapErr_apply, Out.mapErr_eq_ok] at e
  exact h c x c' e

/-- What is read first pays for what is returned. -/
theorem bind {k : Nat} {f : β → Nat} {g : α → Nat} {p : Parser ε α} {q : α → Parser ε β} (hp : Within 0 g p)
    (hq : ∀ x, Within (g x + k) f (q x)) : Within k f (p >>= q) := by
  intro c y c' e
  rw [Parser.bind_apply, Out.bind_eq_ok] at e
  obtain ⟨⟨x, c1⟩, e1, e2⟩ := e
  obtain ⟨h1, h2⟩ := hp c x c1 e1
  obtain ⟨h3, h4⟩ := hq x c1 y c' e2
  exact ⟨h1.trans h3, by omega⟩

theorem adv {k : Nat} {p : Parser ε α} (h : Adv k p) : Within 0 (fun _ => 255 * k) p := by
  intro c x c' e
  obtain ⟨_, h2, _⟩ := h c x c' e
  exact ⟨by omega, by simp only; omega⟩

theorem read (e : ε) (n : Nat) : Within 0 (fun bs => 255 * bs.length) (Parser.read e n) := by
  intro c x c' h
  simp only [Parser.read, Cursor.read] at h
  cases ha : checkedAdd c.pos n with
  | none => rw [ha] at h; cases h
  | some stop =>
    rw [ha] at h
    simp only at h
    by_cases hc : stop > c.backing.length
    · rw [if_pos hc] at h; cases h
    · rw [if_neg hc] at h
      simp only [Out.ok.injEq, Prod.mk.injEq] at h
      have hs : stop = c.pos + n := by
        unfold checkedAdd at ha
        split at ha
        · simpa using ha.symm
        · cases ha
      rw [← h.1, ← h.2]
      have hl : (Cursor.slice c.backing c.pos stop).length ≤ n := by
        unfold Cursor.slice
        rw [List.length_take]
        omega
      exact ⟨by simp only; omega, by simp only; omega⟩

theorem ite {k : Nat} {f : α → Nat} {P : Prop} [Decidable P] {p q : Parser ε α} (hp : P → Within k f p)
    (hq : ¬ P → Within k f q) : Within k f (if P then p else q) := by
  by_cases h : P
  · rw [if_pos h]; exact hp h
  · rw [if_neg h]; exact hq h

end Within

/-! ## Bits -/

theorem Bits.drain_length (n : Nat) (b : Bits) (acc l : List Bool) (hn : n = b.valid) (e : drain n b acc = .ok l) :
    b.valid ≤ 8 * b.backing.length ∧ l.length = b.valid + acc.length := by
  induction n generalizing b acc with
  | zero =>
    simp only [drain, Out.ok.injEq] at e
    subst e
    omega
  | succ n ih =>
    simp only [drain, pop] at e
    rw [if_neg (by omega)] at e
    by_cases h8 : (b.valid - 1) % 8 = 0
    · rw [if_pos h8] at e
      cases hl : b.backing.getLast? with
      | none => rw [hl] at e; cases e
      | some x =>
        rw [hl] at e
        have hne : b.backing ≠ [] := by rintro h0; rw [h0] at hl; cases hl
        have := List.length_pos_iff.mpr hne
        have h1 := ih _ _ (by simp only; omega) e
        simp only [List.length_dropLast, List.length_cons] at h1
        omega
    · rw [if_neg h8] at e
      cases hl : b.backing[(b.valid - 1) / 8]? with
      | none => rw [hl] at e; cases e
      | some x =>
        rw [hl] at e
        have hlt := (List.getElem?_eq_some_iff.mp hl).1
        have h1 := ih _ _ (by simp only; omega) e
        simp only [List.length_set, List.length_cons] at h1
        omega

theorem Bits.toBools_length {b : Bits} {l : List Bool} (e : b.toBools = .ok l) : l.length ≤ 8 * b.backing.length := by
  have := drain_length _ b [] l rfl e
  simp only [List.length_nil] at this
  omega

theorem Bits.deser_within : Within 0 (fun b => 255 + 255 * b.backing.length) Bits.deser := by
  unfold deser
  refine Within.bind (Within.adv (Integer.deser_adv _)) fun i => ?_
  refine Within.bind (Within.adv (Adv.lift _)) fun v => ?_
  refine Within.bind (Within.read _ _) fun bs => Within.pure ?_
  simp only
  omega

theorem Huffman.decodeAux_length {T : Type} [DecidableEq T] (root : Node T) (bits : List Bool) (cur : Node T)
    (acc out : List T) (e : decodeAux root cur acc bits = .ok out) : out.length ≤ acc.length + bits.length := by
  induction bits generalizing cur acc with
  | nil =>
    cases cur <;> (simp only [decodeAux] at e; split at e <;> simp at e; rw [← e]; simp)
  | cons b bits ih =>
    cases cur with
    | leaf t => simp [decodeAux] at e
    | branch l r =>
      simp only [decodeAux] at e
      split at e
      · have := ih _ _ e
        simp only [List.length_append, List.length_cons, List.length_nil] at this ⊢
        omega
      · have := ih _ _ e
        simp only [List.length_cons]
        omega

theorem Huffman.decode_length {T : Type} [DecidableEq T] {h : Huffman T} {bits : Bits} {out : List T}
    (e : h.decode bits = .ok out) : out.length ≤ 8 * bits.backing.length := by
  unfold decode at e
  rw [Out.bind_eq_ok] at e
  obtain ⟨l, e1, e2⟩ := e
  rw [Out.mapErr_eq_ok] at e1
  have h1 := Bits.toBools_length e1
  have h2 := decodeAux_length _ _ _ _ _ e2
  simp only [List.length_nil] at h2
  omega

/-! ## Text -/

theorem utf8Decode_length {bs : List UInt8} {s : List Char} (h : utf8Decode bs = some s) : s.length ≤ bs.length := by
  have : ∀ s : List Char, s.length ≤ (utf8 s).length := by
    intro s
    induction s with
    | nil => simp
    | cons c s ih =>
      have hp : 1 ≤ (String.utf8EncodeChar c).length := by
        rw [String.length_utf8EncodeChar]
        exact Char.utf8Size_pos c
      simp only [utf8, List.flatMap_cons, List.length_append, List.length_cons] at ih ⊢
      omega
  have := this s
  rw [utf8_utf8Decode h] at this
  exact this

theorem parseString_within (h : Option (Huffman Char)) (byte : UInt8) :
    Within 0 (fun s => 255 + 31 * s.length) (parseString h byte) := by
  unfold parseString
  refine Within.ite (fun _ => ?_) (fun _ => ?_)
  · cases h with
    | none => exact Within.fail _ _ _
    | some h =>
      refine Within.bind (Bits.deser_within.mapErr _) fun bits => Within.mapErr _ (Within.lift fun s e => ?_)
      have := Huffman.decode_length e
      omega
  · refine Within.bind (Within.adv (uintP_adv 8)) fun len => ?_
    refine Within.bind (Within.read _ _) fun bs => Within.lift fun s e => ?_
    have hd : utf8Decode bs = some s := by
      revert e
      cases utf8Decode bs <;> simp [Out.ofOption]
    have := utf8Decode_length hd
    omega

/-! ## Binary data -/

open Classical in
/-- The length of binary data, except for long runs of one byte. -/
noncomputable def counted (d : List UInt8) : Nat := if 255 < d.length ∧ ¬ TwoSymbols d then 0 else d.length

theorem counted_le (d : List UInt8) : counted d ≤ d.length := by
  unfold counted; split <;> omega

theorem counted_replicate (n : Nat) (x : UInt8) : counted (List.replicate n x) ≤ 255 := by
  unfold counted
  split
  · omega
  · rename_i h
    have : ¬ TwoSymbols (List.replicate n x) := by
      rintro ⟨a, ha, b, hb, hab⟩
      rw [List.mem_replicate] at ha hb
      exact hab (ha.2.trans hb.2.symm)
    by_contra hc
    exact h ⟨by omega, this⟩

theorem Binary.unRuns_length (bs : List UInt8) : (unRuns bs).length ≤ 255 * bs.length := by
  induction bs using unRuns.induct with
  | case1 count byte rest ih =>
    have := count.toNat_lt
    simp only [unRuns, List.length_append, List.length_replicate, List.length_cons]
    omega
  | case2 bs h =>
    rw [unRuns]
    · simp
    · exact h

theorem Binary.deser_within {z : Lz} (hz : z.Bounded) (ct : BinaryCompression) :
    Within 0 counted (Binary.deser z ct) := by
  cases ct with
  | nothing =>
    refine Within.bind (Within.adv usizeDeser_adv) fun n => ?_
    intro c x c' e
    obtain ⟨h1, h2⟩ := Within.read _ _ c x c' e
    simp only at h2
    have := counted_le x
    exact ⟨h1, by omega⟩
  | runLengthEncoding =>
    show Within 0 counted unRle
    unfold unRle
    refine Within.bind (Within.adv usizeDeser_adv) fun n => Within.ite (fun _ => Within.pure ?_) fun _ => ?_
    · simp [counted]
    · refine Within.bind (Within.read _ _) fun bs => Within.pure ?_
      have := counted_le (unRuns bs)
      have := unRuns_length bs
      omega
  | lempelZiv =>
    show Within 0 counted (unLz z)
    unfold unLz
    refine Within.bind (Within.adv usizeDeser_adv) fun n => Within.ite (fun _ => Within.pure ?_) fun _ => ?_
    · simp [counted]
    · refine Within.bind (Within.adv usizeDeser_adv) fun m => ?_
      refine Within.bind (Within.read _ _) fun bs => Within.mapErr _ (Within.lift fun out e => ?_)
      have := counted_le out
      have := hz _ _ _ e
      omega
  | huffman =>
    refine Within.mapErr _ ?_
    unfold unHuffman
    refine Within.bind (Within.adv (Adv.next _)) fun first => Within.ite (fun _ => Within.pure ?_) fun _ =>
      Within.ite (fun _ => ?_) fun _ => ?_
    · simp [counted]
    · refine Within.bind (Within.adv ((Integer.deser_adv _).mapErr _)) fun i => ?_
      refine Within.bind (Within.adv ((Adv.lift _).mapErr _)) fun n => ?_
      refine Within.bind (Within.adv (Adv.next _)) fun x => Within.lift fun out e => ?_
      unfold vecRepeat at e
      split at e
      · simp only [Out.ok.injEq] at e
        subst e
        have := counted_replicate n x
        omega
      · cases e
    · refine Within.bind (Within.adv (Node.deser8_adv.bind0 fun _ => Adv.pure _)) fun h => ?_
      refine Within.bind (Bits.deser_within.mapErr _) fun bits => Within.lift fun out e => ?_
      have := counted_le out
      have := Huffman.decode_length e
      omega

/-! ## Values -/

namespace Value

mutual
/-- What a value takes: its size, with 31 for every character outside JSON, and long runs of one byte left out. -/
noncomputable def held (env : Env) : Value → Nat
  | string s => 1 + 31 * s.length
  | binary b => 1 + counted b
  | json j => 1 + (env.jsonPrint j).length
  | timezone n => 1 + 31 * n.length
  | map m => 1 + heldEntries env m
  | array a => 1 + heldList env a
  | _ => 1

noncomputable def heldList (env : Env) : List Value → Nat
  | [] => 0
  | v :: vs => held env v + heldList env vs

noncomputable def heldEntries (env : Env) : List (List Char × Value) → Nat
  | [] => 0
  | (k, v) :: vs => (1 + 31 * k.length) + held env v + heldEntries env vs
end

theorem heldList_append (env : Env) (a b : List Value) : heldList env (a ++ b) = heldList env a + heldList env b := by
  induction a with
  | nil => simp [heldList]
  | cons v a ih => simp only [List.cons_append, heldList, ih]; omega

theorem heldEntries_eq (env : Env) (m : List (List Char × Value)) :
    heldEntries env m = (m.map fun x => (1 + 31 * x.1.length) + held env x.2).sum := by
  induction m with
  | nil => simp [heldEntries]
  | cons x m ih => obtain ⟨k, v⟩ := x; simp [heldEntries, ih]

theorem heldEntries_perm {env : Env} {m m' : List (List Char × Value)} (h : m.Perm m') :
    heldEntries env m = heldEntries env m' := by
  rw [heldEntries_eq, heldEntries_eq]
  exact (h.map _).sum_eq

theorem heldEntries_insert (env : Env) (k : List Char) (v : Value) (m : List (List Char × Value)) :
    heldEntries env (mapInsert k v m) ≤ heldEntries env m + ((1 + 31 * k.length) + held env v) := by
  induction m with
  | nil => simp [mapInsert, heldEntries]
  | cons x m ih =>
    obtain ⟨k', v'⟩ := x
    simp only [mapInsert]
    split
    · rename_i h
      subst h
      simp only [heldEntries]
      omega
    · simp only [heldEntries]
      omega

/-- The size of a value without long runs. -/
theorem size_le_held (env : Env) (v : Value) : NoLongRun v → v.size env ≤ held env v := by
  induction v using Value.induct with
  | h v iha ihm =>
    intro hr
    cases v with
    | array a =>
      simp only [size, held]
      have : ∀ a' : List Value, (∀ v ∈ a', v ∈ a) → sizeList env a' ≤ heldList env a' := by
        intro a'
        induction a' with
        | nil => intro _; simp [sizeList]
        | cons v a' ih =>
          intro hs
          have hv := hs v (by simp)
          have h1 := iha a rfl v hv fun d hd => hr d (.array hv hd)
          have h2 := ih fun w hw => hs w (by simp [hw])
          simp only [sizeList, heldList]
          omega
      have := this a fun _ h => h
      omega
    | map m =>
      simp only [size, held]
      have : ∀ m' : List (List Char × Value), (∀ x ∈ m', x ∈ m) → sizeEntries env m' ≤ heldEntries env m' := by
        intro m'
        induction m' with
        | nil => intro _; simp [sizeEntries]
        | cons x m' ih =>
          obtain ⟨k, v⟩ := x
          intro hs
          have hv := hs (k, v) (by simp)
          have h1 := ihm m rfl k v hv fun d hd => hr d (.map hv hd)
          have h2 := ih fun w hw => hs w (by simp [hw])
          simp only [sizeEntries, heldEntries]
          omega
      have := this m fun _ h => h
      omega
    | binary d =>
      have : counted d = d.length := by
        unfold counted
        rw [if_neg]
        rintro ⟨h1, h2⟩
        exact h2 (hr d (.refl _) h1)
      simp only [size, held]
      omega
    | _ => simp only [size, held] <;> omega

/-- What a result of `parse_primitive` takes. -/
noncomputable def ParseResult.held (env : Env) : ParseResult → Nat
  | .value v => v.held env
  | _ => 1

theorem parsePrimitive_within {env : Env} (hz : env.lz.Bounded) (h : Option (Huffman Char)) :
    Within 0 (ParseResult.held env) (parsePrimitive env h) := by
  unfold parsePrimitive
  refine Within.bind (Within.adv (Adv.next _)) fun byte => ?_
  refine Within.bind (Within.adv (Adv.lift _)) fun ty => ?_
  cases ty with
  | integer =>
    refine Within.bind (Within.adv ((Adv.lift _).mapErr _)) fun ss => ?_
    refine Within.bind (Within.adv (intP_adv ss)) fun i => Within.pure ?_
    simp only [ParseResult.held, Value.held]; omega
  | imaginary =>
    refine Within.bind (Within.adv ((Imaginary.deser_adv _).mapErr _)) fun z => Within.pure ?_
    simp only [ParseResult.held, Value.held]; omega
  | character =>
    refine Within.bind (Within.adv (uintP_adv 4)) fun n => ?_
    refine Within.bind (Within.adv (Adv.lift _)) fun ch => Within.pure ?_
    simp only [ParseResult.held, Value.held]; omega
  | timestamp =>
    refine Within.bind (Within.adv (timestampP_adv _)) fun t => Within.pure ?_
    simp only [ParseResult.held, Value.held]; omega
  | string =>
    refine Within.bind (parseString_within h byte) fun s => Within.pure ?_
    simp only [ParseResult.held, Value.held]; omega
  | json => exact Within.pure (by simp only [ParseResult.held]; omega)
  | binary =>
    refine Within.bind (Within.adv ((Adv.lift _).mapErr _)) fun ct => ?_
    refine Within.bind ((Binary.deser_within hz ct).mapErr _) fun b => Within.pure ?_
    simp only [ParseResult.held, Value.held]; omega
  | boolean => exact Within.pure (by simp only [ParseResult.held, Value.held]; omega)
  | null => exact Within.pure (by simp only [ParseResult.held, Value.held]; omega)
  | singleFloat =>
    refine Within.bind (Within.adv (Adv.read _ _)) fun bs => Within.pure ?_
    simp only [ParseResult.held, Value.held]; omega
  | doubleFloat =>
    refine Within.bind (Within.adv (Adv.read _ _)) fun bs => Within.pure ?_
    simp only [ParseResult.held, Value.held]; omega
  | map =>
    have hl : Adv 0 (lenP byte .map) := Adv.bind0 (Adv.lift _) fun ty => Adv.ite (fun _ => Adv.ite
      (fun _ => (uintP_adv 8).mono (Nat.zero_le _)) (fun _ => Adv.pure _)) (fun _ => Adv.fail _ _)
    refine Within.bind (Within.adv hl) fun len => Within.pure ?_
    simp only [ParseResult.held]; omega
  | array =>
    have hl : Adv 0 (lenP byte .array) := Adv.bind0 (Adv.lift _) fun ty => Adv.ite (fun _ => Adv.ite
      (fun _ => (uintP_adv 8).mono (Nat.zero_le _)) (fun _ => Adv.pure _)) (fun _ => Adv.fail _ _)
    refine Within.bind (Within.adv hl) fun len => Within.pure ?_
    simp only [ParseResult.held]; omega
  | timezone => exact Within.pure (by simp only [ParseResult.held]; omega)
  | ipv4Addr =>
    refine Within.bind (Within.adv (Adv.read _ _)) fun bs => Within.pure ?_
    simp only [ParseResult.held, Value.held]; omega
  | ipv6Addr =>
    refine Within.bind (Within.adv (Adv.read _ _)) fun bs => Within.pure ?_
    simp only [ParseResult.held, Value.held]; omega

/-- What a state of the loop takes. -/
noncomputable def DState.held (env : Env) : DState → Nat
  | .foundValue v => v.held env
  | .map soFar _ _ => 1 + heldEntries env soFar
  | .foundKey k => 1 + 31 * k.length
  | .foundKeyValue k v => (1 + 31 * k.length) + v.held env
  | .array soFar _ => 1 + heldList env soFar
  | _ => 0

/-- What a stack takes. -/
noncomputable def stackHeld (env : Env) : List DState → Nat
  | [] => 0
  | st :: stack => st.held env + stackHeld env stack

/-- What the outcome of an iteration takes. -/
noncomputable def outHeld (env : Env) : Value ⊕ List DState → Nat
  | .inl v => v.held env
  | .inr stack => stackHeld env stack

theorem step_within {env : Env} (hz : env.lz.Bounded) (hj : env.JsonBounded) (hm : HashOrder env.mapOrd)
    (h : Option (Huffman Char)) (st : DState) (stack : List DState) :
    Within (stackHeld env (st :: stack)) (outHeld env) (step env h st stack) := by
  cases st with
  | valueNeeded =>
    simp only [step]
    refine Within.bind (parsePrimitive_within hz h) fun r => ?_
    cases r with
    | value v => exact Within.pure (by simp only [outHeld, stackHeld, DState.held, ParseResult.held]; omega)
    | newArray len =>
      exact Within.ite (fun _ => Within.pure (by simp only [outHeld, stackHeld, DState.held, ParseResult.held, heldList]; omega))
        fun _ => Within.crash _ _ _
    | newMap len byte =>
      exact Within.ite (fun _ => Within.pure (by simp only [outHeld, stackHeld, DState.held, ParseResult.held, heldEntries]; omega))
        fun _ => Within.crash _ _ _
    | json => exact Within.pure (by simp only [outHeld, stackHeld, DState.held, ParseResult.held]; omega)
    | timezone => exact Within.pure (by simp only [outHeld, stackHeld, DState.held, ParseResult.held]; omega)
  | foundValue val =>
    simp only [step]
    refine Within.lift fun r e => ?_
    cases stack with
    | nil =>
      simp only [afterValue, Out.ok.injEq] at e
      subst e
      simp only [outHeld, stackHeld, DState.held]
      omega
    | cons top stack =>
      cases top with
      | foundKey key =>
        simp only [afterValue, Out.ok.injEq] at e
        subst e
        simp only [outHeld, stackHeld, DState.held]
        omega
      | array soFar left =>
        simp only [afterValue] at e
        split at e <;>
        · simp only [Out.ok.injEq] at e
          subst e
          simp only [outHeld, stackHeld, DState.held, Value.held, heldList_append, heldList]
          omega
      | jsonNeeded =>
        simp only [afterValue] at e
        split at e
        · rename_i s
          split at e
          · rename_i j hjs
            simp only [Out.ok.injEq] at e
            subst e
            have := hj s j hjs
            simp only [outHeld, stackHeld, DState.held, Value.held]
            omega
          · cases e
        · cases e
      | timezoneNeeded =>
        simp only [afterValue] at e
        split at e
        · split at e
          · simp only [Out.ok.injEq] at e
            subst e
            simp only [outHeld, stackHeld, DState.held, Value.held]
            omega
          · cases e
        · cases e
      | valueNeeded => cases e
      | foundValue _ => cases e
      | map _ _ _ => cases e
      | foundKeyValue _ _ => cases e
  | array soFar left =>
    exact Within.pure (by simp only [outHeld, stackHeld, DState.held]; omega)
  | map soFar left byte =>
    simp only [step]
    refine Within.bind (parseString_within h byte) fun key => Within.pure ?_
    simp only [outHeld, stackHeld, DState.held]
    omega
  | foundKeyValue key val =>
    simp only [step]
    split
    · rename_i soFar left byte rest
      have h1 := heldEntries_insert env key val soFar
      have h2 := heldEntries_perm (env := env) (hm (mapInsert key val soFar))
      refine Within.ite (fun _ => Within.pure ?_) fun _ => Within.pure ?_
      · simp only [outHeld, stackHeld, DState.held, Value.held]
        omega
      · simp only [outHeld, stackHeld, DState.held]
        omega
    · exact Within.fail _ _ _
  | foundKey _ => exact Within.fail _ _ _
  | jsonNeeded => exact Within.fail _ _ _
  | timezoneNeeded => exact Within.fail _ _ _

theorem run_within {env : Env} (hz : env.lz.Bounded) (hj : env.JsonBounded) (hm : HashOrder env.mapOrd)
    (h : Option (Huffman Char)) (fuel : Nat) (stack : List DState) :
    Within (stackHeld env stack) (held env) (run env h fuel stack) := by
  induction fuel generalizing stack with
  | zero => exact Within.crash _ _ _
  | succ fuel ih =>
    cases stack with
    | nil => exact Within.fail _ _ _
    | cons st stack =>
      intro c v c' e
      simp only [run] at e
      rw [Parser.bind_apply, Out.bind_eq_ok] at e
      obtain ⟨⟨r, c1⟩, e1, e2⟩ := e
      obtain ⟨h1, h2⟩ := step_within hz hj hm h st stack c r c1 e1
      cases r with
      | inl w =>
        simp only [Parser.pure_apply, Out.ok.injEq, Prod.mk.injEq] at e2
        rw [← e2.1, ← e2.2]
        exact ⟨h1, h2⟩
      | inr stack' =>
        obtain ⟨h3, h4⟩ := ih stack' c1 v c' e2
        simp only [outHeld] at h2
        exact ⟨h1.trans h3, by omega⟩

theorem deser_within {env : Env} (hz : env.lz.Bounded) (hj : env.JsonBounded) (hm : HashOrder env.mapOrd)
    (h : Option (Huffman Char)) : Within 0 (held env) (deser env h) := by
  intro c v c' e
  have := run_within hz hj hm h _ _ c v c' e
  simpa [stackHeld, DState.held] using this

end Value

end Souris
