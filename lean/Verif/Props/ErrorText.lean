import Verif.Lemmas.ErrorText

/-!
# C91, C92: what errors say

C91: the message of an error tells which error it is, with everything it carries. C92: following `source`
leads to the root cause; this fails for two variants.
-/

namespace Souris.Fault

macro "other_variant" h:ident : tactic => `(tactic| (exact absurd $h (say_ne (by decide +kernel))))

theorem integer_display : Function.Injective IntegerErr.display := by
  intro e e' h
  cases e <;> cases e' <;> simp only [IntegerErr.display] at h <;>
    first
    | rfl
    | other_variant h
    | (rw [say_inj h])
    | (rw [binByte_inj (say_inj h)])

theorem huffman_display : Function.Injective HuffmanErr.display := by
  intro e e' h
  cases e <;> cases e' <;> simp only [HuffmanErr.display] at h <;>
    first
    | rfl
    | other_variant h
    | (rw [integer_display (say_inj h)])
    | (rw [decByte_inj (say_inj h)])
    | skip
  · have := displayBytes_cut (r := []) (r' := []) (by simpa using say_inj h)
    rw [leBytes_inj this.1]
  · rename_i ex f ex' f'
    have h1 := say_inj h
    have sp : ∀ r, NoDigit (say " (" r) := by
      intro r c t e
      have : say " (" r = ' ' :: '(' :: r := rfl
      rw [this, List.cons.injEq] at e
      rw [← e.1]; decide
    obtain ⟨e1, e2⟩ := natText_cut (sp _) (sp _) h1
    have e3 := say_inj e2
    rw [List.cons.injEq] at e3
    rw [e3.1, decByte_inj (say_inj e3.2)]

theorem binary_display : Function.Injective BinaryErr.display := by
  intro e e' h
  cases e <;> cases e' <;> simp only [BinaryErr.display] at h <;>
    first
    | rfl
    | other_variant h
    | (rw [integer_display (say_inj h)])
    | (rw [huffman_display (say_inj h)])
    | (rw [decByte_inj (say_inj h)])
    | (rw [say_inj h])

theorem value_display : Function.Injective ValueErr.display := by
  intro e e' h
  cases e <;> cases e' <;> simp only [ValueErr.display] at h <;>
    first
    | rfl
    | other_variant h
    | (rw [integer_display (say_inj h)])
    | (rw [huffman_display (say_inj h)])
    | (rw [binary_display (say_inj h)])
    | (rw [binByte_inj (say_inj h)])
    | (rw [stateName_inj (say_inj h)])
    | (rw [say_inj h])
    | skip
  · obtain ⟨e1, e2⟩ := tyName_cut rfl (say_inj h)
    rw [e1, tyName_inj e2]
  · obtain ⟨e1, e2⟩ := tyName_cut rfl (say_inj h)
    rw [e1, causeName_inj e2]

theorem store_display : Function.Injective StoreErr.display := by
  intro e e' h
  cases e <;> cases e' <;> simp only [StoreErr.display] at h <;>
    first
    | rfl
    | other_variant h
    | (rw [integer_display (say_inj h)])
    | (rw [huffman_display (say_inj h)])
    | (rw [binary_display (say_inj h)])
    | (rw [value_display (say_inj h)])
    | (rw [binByte_inj (say_inj h)])
    | (rw [tyName_inj (List.append_cancel_right (say_inj h))])
    | (rw [say_inj h])

theorem client_display : Function.Injective ClientErr.display := by
  intro e e' h
  cases e <;> cases e' <;> simp only [ClientErr.display] at h <;>
    first
    | rfl
    | other_variant h
    | (rw [store_display (say_inj h)])
    | (rw [value_display (say_inj h)])
    | (rw [natText_inj' (say_inj h)])
    | (rw [say_inj h])

theorem rejection_display : Function.Injective RejectionErr.display := by
  intro e e' h
  cases e <;> cases e' <;> simp only [RejectionErr.display] at h <;>
    first
    | rfl
    | other_variant h
    | (rw [store_display (say_inj h)])
    | (rw [value_display (say_inj h)])
    | (rw [say_inj h])

theorem mouse_display : Function.Injective MouseErr.display := by
  intro e e' h
  cases e <;> cases e' <;> simp only [MouseErr.display] at h <;>
    first
    | rfl
    | other_variant h
    | (rw [store_display (say_inj h)])
    | (rw [value_display (say_inj h)])
    | (rw [client_display (say_inj h)])
    | (rw [say_inj h])

/-! `Debug` -/

theorem strLiteral_inj (sh : Shows) {s t : Text} (h : sh.strLiteral s = sh.strLiteral t) : s = t :=
  (strLiteral_cut sh (r := []) (r' := []) (by simpa using h)).1

theorem integer_debug (sh : Shows) : Function.Injective (IntegerErr.debug sh) := by
  intro e e' h
  cases e <;> cases e' <;> simp only [IntegerErr.debug] at h <;>
    first
    | rfl
    | other_variant h
    | (rw [decByte_inj (wrap_inj h)])
    | (rw [strLiteral_inj sh (wrap_inj h)])
    | (rw [wrap_inj h])

theorem huffman_debug (sh : Shows) : Function.Injective (HuffmanErr.debug sh) := by
  intro e e' h
  cases e <;> cases e' <;> simp only [HuffmanErr.debug] at h <;>
    first
    | rfl
    | other_variant h
    | (rw [integer_debug sh (wrap_inj h)])
    | (rw [UInt32.toNat_inj.mp (natText_inj' (wrap_inj h))])
    | (rw [decByte_inj (wrap_inj h)])
    | skip
  obtain ⟨e1, e2⟩ := charLiteral_cut sh (say_inj h)
  rw [e1, decByte_inj (List.append_cancel_right (say_inj e2))]

theorem binary_debug (sh : Shows) : Function.Injective (BinaryErr.debug sh) := by
  intro e e' h
  cases e <;> cases e' <;> simp only [BinaryErr.debug] at h <;>
    first
    | rfl
    | other_variant h
    | (rw [integer_debug sh (wrap_inj h)])
    | (rw [huffman_debug sh (wrap_inj h)])
    | (rw [decByte_inj (wrap_inj h)])
    | (rw [wrap_inj h])

theorem value_debug (sh : Shows) : Function.Injective (ValueErr.debug sh) := by
  intro e e' h
  cases e <;> cases e' <;> simp only [ValueErr.debug] at h <;>
    first
    | rfl
    | other_variant h
    | (rw [integer_debug sh (wrap_inj h)])
    | (rw [huffman_debug sh (wrap_inj h)])
    | (rw [binary_debug sh (wrap_inj h)])
    | (rw [strLiteral_inj sh (wrap_inj h)])
    | (rw [stateName_inj (wrap_inj h)])
    | (rw [decByte_inj (wrap_inj h)])
    | (rw [wrap_inj h])
    | skip
  · obtain ⟨e1, e2⟩ := tyName_cut rfl (say_inj h)
    rw [e1, tyName_inj (List.append_cancel_right e2)]
  · obtain ⟨e1, e2⟩ := tyName_cut rfl (say_inj h)
    rw [e1, causeName_inj (List.append_cancel_right e2)]

theorem store_debug (sh : Shows) : Function.Injective (StoreErr.debug sh) := by
  intro e e' h
  cases e <;> cases e' <;> simp only [StoreErr.debug] at h <;>
    first
    | rfl
    | other_variant h
    | (rw [integer_debug sh (wrap_inj h)])
    | (rw [huffman_debug sh (wrap_inj h)])
    | (rw [binary_debug sh (wrap_inj h)])
    | (rw [value_debug sh (wrap_inj h)])
    | (rw [decByte_inj (wrap_inj h)])
    | (rw [tyName_inj (wrap_inj h)])
    | (rw [wrap_inj h])

theorem client_debug (sh : Shows) : Function.Injective (ClientErr.debug sh) := by
  intro e e' h
  cases e <;> cases e' <;> simp only [ClientErr.debug] at h <;>
    first
    | rfl
    | other_variant h
    | (rw [store_debug sh (wrap_inj h)])
    | (rw [value_debug sh (wrap_inj h)])
    | (rw [natText_inj' (wrap_inj h)])
    | (rw [wrap_inj h])

theorem server_debug (sh : Shows) : Function.Injective (ServerErr.debug sh) := by
  intro e e' h
  cases e <;> cases e' <;> simp only [ServerErr.debug] at h <;>
    first
    | rfl
    | other_variant h
    | (rw [store_debug sh (wrap_inj h)])
    | (rw [value_debug sh (wrap_inj h)])
    | (rw [integer_debug sh (wrap_inj h)])
    | (rw [wrap_inj h])

theorem mouse_debug (sh : Shows) : Function.Injective (MouseErr.debug sh) := by
  intro e e' h
  cases e <;> cases e' <;> simp only [MouseErr.debug] at h <;>
    first
    | rfl
    | other_variant h
    | (rw [store_debug sh (wrap_inj h)])
    | (rw [value_debug sh (wrap_inj h)])
    | (rw [client_debug sh (wrap_inj h)])
    | (rw [wrap_inj h])

theorem server_display (sh : Shows) : Function.Injective (ServerErr.display sh) := by
  intro e e' h
  cases e <;> cases e' <;> simp only [ServerErr.display] at h <;>
    first
    | rfl
    | other_variant h
    | (rw [store_display (say_inj h)])
    | (rw [value_display (say_inj h)])
    | (rw [integer_debug sh (say_inj h)])
    | (rw [say_inj h])

end Souris.Fault

namespace Souris

open Fault

/-- C91: two errors of the same type with the same message are the same error, however deeply errors are
nested in them and whatever texts other libraries contribute. -/
theorem C91_messages (sh : Shows) :
    Function.Injective IntegerErr.display ∧ Function.Injective HuffmanErr.display ∧
    Function.Injective BinaryErr.display ∧ Function.Injective ValueErr.display ∧
    Function.Injective StoreErr.display ∧ Function.Injective ClientErr.display ∧
    Function.Injective RejectionErr.display ∧ Function.Injective (ServerErr.display sh) ∧
    Function.Injective MouseErr.display :=
  ⟨integer_display, huffman_display, binary_display, value_display, store_display, client_display,
    rejection_display, server_display sh, mouse_display⟩

/-- C91 over HTTP: the body of an answer made from an error tells the error, and whether it was the handler
or the reading of the request that failed. -/
theorem C91_bodies (sh : Shows) (br : Text → Nat) :
    Function.Injective (fun e => (ServerErr.response sh e).2) ∧
    Function.Injective (fun e => (RejectionErr.response br e).2) ∧
    ∀ e r, (ServerErr.response sh e).2 ≠ (RejectionErr.response br r).2 := by
  refine ⟨server_debug sh, rejection_display, ?_⟩
  intro e r h
  simp only [ServerErr.response, RejectionErr.response] at h
  cases e <;> cases r <;> simp only [ServerErr.debug, RejectionErr.display] at h <;> other_variant h

/-- C91 on the command line: what `mouse` prints when it fails tells the error. -/
theorem C91_printed (sh : Shows) : Function.Injective (MouseErr.printed sh) :=
  fun _ _ h => mouse_debug sh (say_inj h)

/-- C91 for the daemon of the model: two refused requests with the same answer failed in the same way, and the
status is the one of C50. -/
theorem C91_refusals (sh : Shows) (F F' : Foreign) (r r' : Reply) (x : Nat × Text)
    (h : r.refusal sh F = some x) (h' : r'.refusal sh F' = some x) :
    r.code = some x.1 ∧
    ((∃ e e', r = .error e ∧ r' = .error e' ∧ e.fault F = e'.fault F') ∨
    (∃ e e', r = .rejected e ∧ r' = .rejected e' ∧ e.fault F = e'.fault F')) := by
  have hb := C91_bodies sh (fun _ => 400)
  refine ⟨?_, ?_⟩
  · cases r <;> simp only [Reply.refusal, reduceCtorEq, Option.some.injEq] at h <;> rw [← h]
    · rename_i e
      cases e <;> rfl
    · rfl
  cases r <;> simp only [Reply.refusal, reduceCtorEq] at h <;>
    cases r' <;> simp only [Reply.refusal, reduceCtorEq] at h' <;>
    have e := congrArg Prod.snd (Option.some.inj (h.trans h'.symm))
  · exact .inl ⟨_, _, rfl, rfl, hb.1 e⟩
  · exact absurd e (hb.2.2 _ _)
  · exact absurd e.symm (hb.2.2 _ _)
  · have := hb.2.1 e
    rw [RejectionErr.value.injEq] at this
    exact .inr ⟨_, _, rfl, rfl, this⟩

/-- C91: the message ends with the message of the error below, so it can be read without following
`source`. -/
theorem C91_quotes :
    (∀ e i, e = HuffmanErr.integer i → i.display <:+ e.display) ∧
    (∀ e i, e = BinaryErr.integer i → i.display <:+ e.display) ∧
    (∀ e i, e = BinaryErr.huffman i → i.display <:+ e.display) ∧
    (∀ e i, e = ValueErr.integer i → i.display <:+ e.display) ∧
    (∀ e i, e = ValueErr.binary i → i.display <:+ e.display) ∧
    (∀ e i, e = ValueErr.huffman i → i.display <:+ e.display) ∧
    (∀ e i, e = StoreErr.integer i → i.display <:+ e.display) ∧
    (∀ e i, e = StoreErr.value i → i.display <:+ e.display) ∧
    (∀ e i, e = StoreErr.huffman i → i.display <:+ e.display) ∧
    (∀ e i, e = StoreErr.binary i → i.display <:+ e.display) ∧
    (∀ e i, e = ClientErr.store i → i.display <:+ e.display) ∧
    (∀ e i, e = ClientErr.value i → i.display <:+ e.display) ∧
    (∀ e i, e = RejectionErr.store i → i.display <:+ e.display) ∧
    (∀ e i, e = RejectionErr.value i → i.display <:+ e.display) ∧
    (∀ e i, e = MouseErr.store i → i.display <:+ e.display) ∧
    (∀ e i, e = MouseErr.value i → i.display <:+ e.display) ∧
    (∀ e i, e = MouseErr.client i → i.display <:+ e.display) := by
  refine ⟨?_, ?_, ?_, ?_, ?_, ?_, ?_, ?_, ?_, ?_, ?_, ?_, ?_, ?_, ?_, ?_, ?_⟩ <;>
    (intro e i h; subst h; exact List.suffix_append _ _)

/-- C91: a message that is about a byte, a status code or a type says which, in the place where one expects it. -/
theorem C91_contents :
    (∀ b, EndsBinary (IntegerErr.invalidSignedStateDiscriminant b).display b.toNat) ∧
    (∀ b, EndsBinary (ValueErr.invalidType b).display b.toNat) ∧
    (∀ b, EndsBinary (StoreErr.unsupportedCompression b).display b.toNat) ∧
    (∀ b, EndsDecimal (BinaryErr.noCompressionTypeFound b).display b.toNat) ∧
    (∀ b, EndsDecimal (HuffmanErr.invalidDiscriminant b).display b.toNat) ∧
    (∀ c b, EndsDecimal (HuffmanErr.invalidNodeFormat c b).display b.toNat) ∧
    (∀ n, EndsDecimal (ClientErr.httpErrorCode n).display n) ∧
    (∀ n, EndsDecimal (ClientErr.serverNotHealthy n).display n) ∧
    (∀ f e, (ValueErr.unexpectedValueType f e).display = "Expected ".toList ++ tyName e ++ ", found: ".toList ++ tyName f) ∧
    (∀ f c, ("a ".toList ++ tyName f ++ ", but ".toList ++ causeName c) <:+ (ValueErr.invalidSourisType f c).display) ∧
    (∀ t, ("found ".toList ++ tyName t ++ " instead".toList) <:+ (StoreErr.expectedMap t).display) := by
  refine ⟨fun b => endsBinary _ b, fun b => endsBinary _ b, fun b => endsBinary _ b,
    fun b => endsDecimal (by decide +kernel) _, fun b => endsDecimal (by decide +kernel) _, fun c b => ?_, fun n => endsDecimal (by decide +kernel) _,
    fun n => endsDecimal (by decide +kernel) _, fun f e => ?_, fun f c => ?_, fun t => ?_⟩
  · obtain ⟨ds, h, r⟩ := (endsDecimal (by decide +kernel) b.toNat : EndsDecimal (say ") but found " (natText b.toNat)) b.toNat)
    exact ⟨ds, h.trans ⟨say "Tried to deserialise node, expected: " (natText c.toNat ++ say " (" [c]), by
      simp [HuffmanErr.display, say, decByte]⟩, r⟩
  · simp only [ValueErr.display, say, List.append_assoc]
  · exact ⟨"Error with JSON `souris_type` - was deserialising ".toList, by
      rw [ValueErr.display]; simp only [say, ← List.append_assoc]; rfl⟩
  · exact ⟨"Expected to find a map when deserialising, ".toList, by
      rw [StoreErr.display]; simp only [say, ← List.append_assoc, List.append_nil]; rfl⟩

/-- A nested error and its texts. -/
example : (MouseErr.client (.store (.value (.huffman (.invalidCharacter 0xD800))))).display =
    "Error with souris client: Error with store: Error with values: Error deserialising huffman: Found invalid character: [0x0, 0xD8, 0x0, 0x0]".toList ∧
    (ServerErr.storeError (.value (.unexpectedValueType .map .string))).debug
      ⟨fun _ => true, fun _ => [], fun _ => [], fun _ => [], fun _ => []⟩ =
    "StoreError(Value(UnexpectedValueType { found: Map, expected: String }))".toList := by
  decide +kernel

/-! ## C92 -/

theorem Fault.source_holds {e c : Any} (h : e.source = some c) : Holds e c := by
  cases e with
  | foreign t => simp [Any.source] at h
  | integer e => cases e <;> simp [Any.source, IntegerErr.source] at h; subst h; constructor
  | huffman e => cases e <;> simp [Any.source, HuffmanErr.source] at h; subst h; constructor
  | binary e => cases e <;> simp [Any.source, BinaryErr.source] at h <;> subst h <;> constructor
  | value e => cases e <;> simp [Any.source, ValueErr.source] at h <;> subst h <;> constructor
  | store e => cases e <;> simp [Any.source, StoreErr.source] at h <;> subst h <;> constructor
  | client e => cases e <;> simp [Any.source, ClientErr.source] at h <;> subst h <;> constructor
  | server e => cases e <;> simp [Any.source, ServerErr.source] at h <;> subst h <;> constructor
  | mouse e => cases e <;> simp [Any.source, MouseErr.source] at h <;> subst h <;> constructor

/-- The two variants whose cause `source` does not give. -/
def Fault.Silent (e : Any) : Prop := (∃ b, e = .store (.binary b)) ∨ ∃ t, e = .client (.reqwest t)

/-- C92, exactly: an error gives the error it holds, except for the two variants. -/
theorem C92_source_iff (e c : Any) : e.source = some c ↔ Holds e c ∧ ¬ Silent e := by
  constructor
  · intro h
    refine ⟨source_holds h, ?_⟩
    rintro (⟨b, rfl⟩ | ⟨t, rfl⟩) <;> simp [Any.source, StoreErr.source, ClientErr.source] at h
  · rintro ⟨h, hs⟩
    cases h <;> first | rfl | skip
    · exact absurd (.inl ⟨_, rfl⟩) hs
    · exact absurd (.inr ⟨_, rfl⟩) hs

theorem Fault.holds_unique {e c d : Any} (h : Holds e c) (h' : Holds e d) : c = d := by
  cases h <;> cases h' <;> rfl

/-- Full claim: `∀ e r, Ends e r ↔ Root e r`. Missing: errors with one of the two variants below them. -/
theorem C92_root_cause_partial (e r : Any) (hs : ∀ d, Below e d → ¬ Silent d) : Ends e r ↔ Root e r := by
  constructor
  · intro h
    induction h with
    | @stop e h =>
      refine ⟨.self e, fun c hc => ?_⟩
      rw [(C92_source_iff e c).mpr ⟨hc, hs e (.self e)⟩] at h
      cases h
    | @step e c r h t ih =>
      obtain ⟨hb, hn⟩ := ih (fun d hd => hs d (.step (source_holds h) hd))
      exact ⟨.step (source_holds h) hb, hn⟩
  · rintro ⟨hb, hn⟩
    induction hb with
    | self e =>
      refine .stop ?_
      cases h : e.source with
      | none => rfl
      | some c => exact absurd (source_holds h) (hn c)
    | @step e c d h t ih =>
      exact .step ((C92_source_iff e c).mpr ⟨h, hs e (.self e)⟩) (ih (fun x hx => hs x (.step h hx)) hn)

/-- The measure that `source` lowers. -/
def Fault.Any.depth : Any → Nat
  | foreign _ => 0
  | integer _ => 1
  | huffman _ => 2
  | binary _ => 3
  | value _ => 4
  | store _ => 5
  | client _ => 6
  | server _ => 6
  | mouse _ => 7

theorem Fault.holds_depth {e c : Any} (h : Holds e c) : c.depth < e.depth := by
  cases h <;> simp [Any.depth]

/-- C92: following `source` always ends, after at most seven steps, and at one error only. -/
theorem C92_ends (e : Any) : ∃! r, Ends e r := by
  have main : ∀ n (e : Any), e.depth ≤ n → ∃ r, Ends e r := by
    intro n
    induction n with
    | zero =>
      intro e he
      refine ⟨e, .stop ?_⟩
      cases h : e.source with
      | none => rfl
      | some c => exact absurd (holds_depth (source_holds h)) (by omega)
    | succ n ih =>
      intro e he
      cases h : e.source with
      | none => exact ⟨e, .stop h⟩
      | some c =>
        obtain ⟨r, hr⟩ := ih c (by have := holds_depth (source_holds h); omega)
        exact ⟨r, .step h hr⟩
  obtain ⟨r, hr⟩ := main _ e le_rfl
  refine ⟨r, hr, ?_⟩
  intro r' hr'
  induction hr with
  | stop h =>
    cases hr' with
    | stop _ => rfl
    | step h' _ => rw [h] at h'; cases h'
  | step h t ih =>
    cases hr' with
    | stop h' => rw [h] at h'; cases h'
    | step h' t' =>
      rw [h] at h'
      cases h'
      exact ih t'

/-- C92 fails for a file with an unknown compression byte: reading it fails because of that byte, but
`source` of the error says that there is no cause. -/
theorem C92_refuted_store (env : Env) (F : Foreign) :
    ∃ e, Store.deser env (Store.magic ++ [4]) = .err e ∧
      Root (.store (e.fault F)) (.binary (.noCompressionTypeFound 4)) ∧
      Ends (.store (e.fault F)) (.store (e.fault F)) ∧
      ¬ Ends (.store (e.fault F)) (.binary (.noCompressionTypeFound 4)) := by
  refine ⟨.binary (.noCompressionTypeFound 4), rfl, ⟨.step (.storeBinary _) (.self _), ?_⟩, .stop rfl, ?_⟩
  · intro c h; cases h
  · intro h
    cases h with
    | step h _ => simp [Any.source, StoreErr.source, StoreSerError.fault] at h

/-- C92 fails for every transport failure of the asynchronous client. -/
theorem C92_refuted_client (t : Text) :
    Root (.client (.reqwest t)) (.foreign t) ∧ ¬ Ends (.client (.reqwest t)) (.foreign t) := by
  refine ⟨⟨.step (.clientReqwest t) (.self _), ?_⟩, ?_⟩
  · intro c h; cases h
  · intro h
    cases h with
    | step h _ => simp [Any.source, ClientErr.source] at h

/-- An error with a chain of four. -/
example : Ends (.mouse (.client (.store (.value (.integer (.integerParseError ['x'])))))) (.foreign ['x']) ∧
    ∀ d, Below (.mouse (.client (.store (.value (.integer (.integerParseError ['x'])))))) d → ¬ Silent d := by
  refine ⟨.step rfl (.step rfl (.step rfl (.step rfl (.step rfl (.stop rfl))))), ?_⟩
  intro d h
  rcases h with _ | ⟨⟨⟩, _ | ⟨⟨⟩, _ | ⟨⟨⟩, _ | ⟨⟨⟩, _ | ⟨⟨⟩, _ | ⟨⟨⟩, _⟩⟩⟩⟩⟩⟩ <;> rintro (⟨_, h⟩ | ⟨_, h⟩) <;> cases h

end Souris
