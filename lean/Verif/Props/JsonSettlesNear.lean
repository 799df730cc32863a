import Verif.Props.JsonSettlesText
import Verif.Props.ValueNear
import Verif.Props.Format
import Verif.Props.Reread
import Verif.Spec.ValueFloats

/-! # C103 for texts, with any floats -/

namespace Souris

open Value SerdeJson

theorem get_near {m m' : List (List Char × SJValue)} (hk : m.map Prod.fst = m'.map Prod.fst)
    (h : ∀ x ∈ m.zip m', JsonNear x.1.2 x.2.2) (k : List Char) :
    (SJValue.get k m = none ∧ SJValue.get k m' = none) ∨
      ∃ j j', SJValue.get k m = some j ∧ SJValue.get k m' = some j' ∧ JsonNear j j' := by
  induction m generalizing m' with
  | nil =>
    cases m' with
    | nil => exact .inl ⟨rfl, rfl⟩
    | cons _ _ => cases hk
  | cons x m ih =>
    cases m' with
    | nil => cases hk
    | cons y m' =>
      obtain ⟨k1, j1⟩ := x
      obtain ⟨k2, j2⟩ := y
      simp only [List.map_cons, List.cons.injEq] at hk
      obtain ⟨rfl, hk⟩ := hk
      simp only [SJValue.get]
      split
      · exact .inr ⟨j1, j2, rfl, rfl, h ((k1, j1), (k1, j2)) (by simp)⟩
      · exact ih hk fun x hx => h x (by simp [hx])

theorem asU64_near {j j' : SJValue} (h : JsonNear j j') : j.asU64 = j'.asU64 := by
  cases h <;> rfl

theorem smallInts_near {n : Nat} {a a' : List SJValue} (hl : a.length = a'.length) (h : ∀ x ∈ a.zip a', JsonNear x.1 x.2) :
    smallInts n a = smallInts n a' := by
  induction a generalizing a' with
  | nil => cases a' with
    | nil => rfl
    | cons _ _ => cases hl
  | cons x a ih =>
    cases a' with
    | nil => cases hl
    | cons y a' =>
      simp only [smallInts]
      rw [asU64_near (h (x, y) (by simp)), ih (by simpa using hl) fun x hx => h x (by simp [hx])]

theorem marker_near {m m' : List (List Char × SJValue)} (hk : m.map Prod.fst = m'.map Prod.fst)
    (h : ∀ x ∈ m.zip m', JsonNear x.1.2 x.2.2) : marker m = marker m' := by
  unfold marker
  rcases get_near hk h kTy with ⟨h1, h2⟩ | ⟨j, j', h1, h2, h⟩
  · rw [h1, h2]
  · rw [h1, h2]
    cases h <;> rfl

theorem asF64_near {n n' : SJNumber} (h : JsonNear (.number n) (.number n')) {x : UInt64} (e : SJValue.asF64 n = some x) :
    ∃ x', SJValue.asF64 n' = some x' ∧ FloatKept x x' := by
  cases h with
  | posInt n => exact ⟨x, e, .inl rfl⟩
  | negInt n => exact ⟨x, e, .inl rfl⟩
  | float h => cases e; exact ⟨_, rfl, .inr h⟩

theorem intRead_near {n n' : SJNumber} (h : JsonNear (.number n) (.number n')) : Integer.fromJson n = Integer.fromJson n' := by
  cases h <;> rfl

/-- A marked object whose floats have changed a little is read as the same value with such floats. -/
theorem marked_near {env : Env} {ty : ValueTy} {m m' : List (List Char × SJValue)} (hk : m.map Prod.fst = m'.map Prod.fst)
    (h : ∀ x ∈ m.zip m', JsonNear x.1.2 x.2.2) {v : Value} (e : fromMarked env ty m = .ok v) :
    ∃ v', fromMarked env ty m' = .ok v' ∧ NearTo v v' := by
  have hg := get_near hk h
  cases ty <;> simp only [fromMarked] at e ⊢
  case imaginary =>
    have pol : (match SJValue.get kModulus m, SJValue.get kArgument m with
        | some (.number md), some (.number ar) =>
          match SJValue.asF64 md, SJValue.asF64 ar with
          | some md, some ar => Out.ok (.imaginary (.polar md ar))
          | _, _ => .err (ValueSerError.invalidSourisType .imaginary .invalidData)
        | _, _ => .err (ValueSerError.invalidSourisType .imaginary .notFound)) = Out.ok v →
        ∃ v', (match SJValue.get kModulus m', SJValue.get kArgument m' with
        | some (.number md), some (.number ar) =>
          match SJValue.asF64 md, SJValue.asF64 ar with
          | some md, some ar => Out.ok (.imaginary (.polar md ar))
          | _, _ => .err (ValueSerError.invalidSourisType .imaginary .invalidData)
        | _, _ => .err (ValueSerError.invalidSourisType .imaginary .notFound)) = Out.ok v' ∧ NearTo v v' := by
      intro e
      split at e
      · rename_i md ar h1 h2
        split at e
        · rename_i x y e1 e2
          cases e
          rcases hg kModulus with ⟨g, _⟩ | ⟨j, j', g1, g2, g⟩
          · rw [g] at h1; cases h1
          rcases hg kArgument with ⟨k, _⟩ | ⟨l, l', k1, k2, k⟩
          · rw [k] at h2; cases h2
          rw [g1] at h1; cases h1
          rw [k1] at h2; cases h2
          rw [g2, k2]
          have hn : ∀ {n j'}, JsonNear (.number n) j' → ∃ n', j' = .number n' := by
            intro n j' h
            cases h <;> exact ⟨_, rfl⟩
          obtain ⟨n, rfl⟩ := hn g
          obtain ⟨n', rfl⟩ := hn k
          obtain ⟨x', f1, f2⟩ := asF64_near g e1
          obtain ⟨y', f3, f4⟩ := asF64_near k e2
          exact ⟨.imaginary (.polar x' y'), by simp only [f1, f3], .polar f2 f4⟩
        · cases e
      · cases e
    have hn : ∀ {j j'}, JsonNear j j' → (∃ n n', j = .number n ∧ j' = .number n' ∧ Integer.fromJson n = Integer.fromJson n') ∨
        (∀ n, j ≠ .number n) ∧ ∀ n, j' ≠ .number n := by
      intro j j' h
      cases h with
      | posInt n => exact .inl ⟨_, _, rfl, rfl, rfl⟩
      | negInt n => exact .inl ⟨_, _, rfl, rfl, rfl⟩
      | float h => exact .inl ⟨_, _, rfl, rfl, rfl⟩
      | _ => exact .inr ⟨by simp, by simp⟩
    have num : ∀ k, (∃ n n', SJValue.get k m = some (.number n) ∧ SJValue.get k m' = some (.number n') ∧
          Integer.fromJson n = Integer.fromJson n') ∨
        (∀ n, SJValue.get k m ≠ some (.number n)) ∧ ∀ n, SJValue.get k m' ≠ some (.number n) := by
      intro k
      rcases hg k with ⟨g1, g2⟩ | ⟨j, j', g1, g2, g⟩
      · exact .inr ⟨by simp [g1], by simp [g2]⟩
      · rcases hn g with ⟨n, n', rfl, rfl, e⟩ | ⟨h1, h2⟩
        · exact .inl ⟨n, n', g1, g2, e⟩
        · exact .inr ⟨fun n => by simpa [g1] using h1 n, fun n => by simpa [g2] using h2 n⟩
    rcases num kReal with ⟨n, n', g1, g2, en⟩ | ⟨g1, g2⟩
    · rcases num kImaginary with ⟨l, l', k1, k2, el⟩ | ⟨k1, k2⟩
      · simp only [g1, k1] at e
        simp only [g2, k2, ← en, ← el]
        split at e
        · cases e
          exact ⟨_, rfl, .same (.imaginary (.cartesian ⟨rfl, rfl⟩ ⟨rfl, rfl⟩))⟩
        · cases e
      · split at e
        · rename_i h1 h2; exact absurd h2 (k1 _)
        · split
          · rename_i h1 h2; exact absurd h2 (k2 _)
          · exact pol e
    · split at e
      · rename_i h1 h2; exact absurd h1 (g1 _)
      · split
        · rename_i h1 h2; exact absurd h1 (g2 _)
        · exact pol e
  case timestamp =>
    split at e
    · rename_i s h1
      rcases hg kTimestamp with ⟨g, _⟩ | ⟨j, j', g1, g2, g⟩
      · rw [g] at h1; cases h1
      rw [g1] at h1; cases h1
      cases g
      rw [g2]
      split at e
      · rename_i t ht
        cases e
        exact ⟨_, by simp only [ht], .same (.timestamp t)⟩
      · cases e
    · cases e
  case timezone =>
    split at e
    · rename_i s h1
      rcases hg kTimezone with ⟨g, _⟩ | ⟨j, j', g1, g2, g⟩
      · rw [g] at h1; cases h1
      rw [g1] at h1; cases h1
      cases g
      rw [g2]
      split at e
      · rename_i ht
        cases e
        exact ⟨_, by simp only [if_pos ht], .same (.timezone s)⟩
      · cases e
    · cases e
  case binary =>
    split at e
    · rename_i a h1
      rcases hg kBytes with ⟨g, _⟩ | ⟨j, j', g1, g2, g⟩
      · rw [g] at h1; cases h1
      rw [g1] at h1; cases h1
      cases g with
      | array hl hh =>
        rw [g2]
        simp only [← smallInts_near hl hh]
        split at e
        · cases e
          exact ⟨_, rfl, .same (.binary _)⟩
        · cases e
    · cases e
  case ipv4Addr =>
    split at e
    · rename_i a h1
      rcases hg kOctets with ⟨g, _⟩ | ⟨j, j', g1, g2, g⟩
      · rw [g] at h1; cases h1
      rw [g1] at h1; cases h1
      cases g with
      | array hl hh =>
        rw [g2]
        simp only [← smallInts_near hl hh]
        split at e
        · cases e
          exact ⟨_, rfl, .same (.ipv4 _ _ _ _)⟩
        · cases e
    · cases e
  case ipv6Addr =>
    split at e
    · rename_i a h1
      rcases hg kOctets with ⟨g, _⟩ | ⟨j, j', g1, g2, g⟩
      · rw [g] at h1; cases h1
      rw [g1] at h1; cases h1
      cases g with
      | array hl hh =>
        rw [g2]
        simp only [← smallInts_near hl hh]
        split at e
        · cases e
          exact ⟨_, rfl, .same (.ipv6 _ _ _ _ _ _ _ _)⟩
        · cases e
    · cases e
  all_goals cases e

theorem list_near {env : Env} {a a' : List SJValue} (hl : a.length = a'.length)
    (h : ∀ x ∈ a.zip a', ∀ v, fromJson env x.1 = .ok v → ∃ v', fromJson env x.2 = .ok v' ∧ NearTo v v') {b : List Value}
    (e : fromJsonList env a = .ok b) : ∃ b', fromJsonList env a' = .ok b' ∧ List.Forall₂ NearTo b b' := by
  induction a generalizing a' b with
  | nil =>
    cases a' with
    | nil => cases e; exact ⟨_, rfl, .nil⟩
    | cons _ _ => cases hl
  | cons x a ih =>
    cases a' with
    | nil => cases hl
    | cons y a' =>
      simp only [fromJsonList] at e
      rw [Out.bind_eq_ok] at e
      obtain ⟨v, e1, e⟩ := e
      rw [Out.bind_eq_ok] at e
      obtain ⟨b1, e2, e⟩ := e
      cases e
      obtain ⟨v', f1, n1⟩ := h (x, y) (by simp) v e1
      obtain ⟨b2, f2, n2⟩ := ih (by simpa using hl) (fun x hx => h x (by simp [hx])) e2
      exact ⟨v' :: b2, by simp only [fromJsonList, f1, f2]; rfl, .cons n1 n2⟩

theorem entries_near {env : Env} {m m' : List (List Char × SJValue)} (hk : m.map Prod.fst = m'.map Prod.fst)
    (h : ∀ x ∈ m.zip m', ∀ v, fromJson env x.1.2 = .ok v → ∃ v', fromJson env x.2.2 = .ok v' ∧ NearTo v v')
    {b : List (List Char × Value)} (e : fromJsonEntries env m = .ok b) :
    ∃ b', fromJsonEntries env m' = .ok b' ∧ List.Forall₂ (fun x y => x.1 = y.1 ∧ NearTo x.2 y.2) b b' := by
  induction m generalizing m' b with
  | nil =>
    cases m' with
    | nil => cases e; exact ⟨_, rfl, .nil⟩
    | cons _ _ => cases hk
  | cons x m ih =>
    cases m' with
    | nil => cases hk
    | cons y m' =>
      obtain ⟨k1, j1⟩ := x
      obtain ⟨k2, j2⟩ := y
      simp only [List.map_cons, List.cons.injEq] at hk
      obtain ⟨rfl, hk⟩ := hk
      simp only [fromJsonEntries] at e
      rw [Out.bind_eq_ok] at e
      obtain ⟨v, e1, e⟩ := e
      rw [Out.bind_eq_ok] at e
      obtain ⟨b1, e2, e⟩ := e
      cases e
      obtain ⟨v', f1, n1⟩ := h ((k1, j1), (k1, j2)) (by simp) v e1
      obtain ⟨b2, f2, n2⟩ := ih hk (fun x hx => h x (by simp [hx])) e2
      exact ⟨(k1, v') :: b2, by simp only [fromJsonEntries, f1, f2]; rfl, .cons ⟨rfl, n1⟩ n2⟩

theorem nearTo_map {m m' : List (List Char × Value)} (hn : (m.map Prod.fst).Nodup)
    (h : List.Forall₂ (fun x y => x.1 = y.1 ∧ NearTo x.2 y.2) m m') {l l' : List (List Char × Value)}
    (p : l.Perm m) (p' : l'.Perm m') : NearTo (.map l) (.map l') := by
  have hk := forall₂_keys (R := NearTo) h
  have key : ∀ (m : List (List Char × Value)) k, (∃ v, (k, v) ∈ m) ↔ k ∈ m.map Prod.fst := by
    intro m k
    simp
  refine .map ?_ (fun k => ?_) fun k v v' hv hv' => ?_
  · rw [p.length_eq, p'.length_eq, h.length_eq]
  · rw [key, key, (p.map Prod.fst).mem_iff, (p'.map Prod.fst).mem_iff, hk]
  · exact forall₂_entry (R := NearTo) h hn k v v' (p.mem_iff.mp hv) (p'.mem_iff.mp hv')

/-- JSON whose floats have changed a little is read as the same value with such floats. -/
theorem fromJson_near {env : Env} (hord : HashOrder env.mapOrd) {j j' : SJValue} (h : JsonNear j j') :
    j.Made (fun _ => True) → ∀ v, fromJson env j = .ok v → ∃ v', fromJson env j' = .ok v' ∧ NearTo v v' := by
  induction h with
  | null => intro _ v e; cases e; exact ⟨_, rfl, .same .null⟩
  | bool b => intro _ v e; cases e; exact ⟨_, rfl, .same (.boolean b)⟩
  | posInt n => intro _ v e; cases e; exact ⟨_, rfl, .same (.integer ⟨rfl, rfl⟩)⟩
  | negInt n => intro _ v e; cases e; exact ⟨_, rfl, .same (.integer ⟨rfl, rfl⟩)⟩
  | float h => intro _ v e; cases e; exact ⟨_, rfl, .double h⟩
  | string s => intro _ v e; cases e; exact ⟨_, rfl, .same (.string s)⟩
  | @array a a' hl _ ih =>
    intro hm v e
    cases hm with
    | array hm =>
      simp only [fromJson] at e
      rw [Out.bind_eq_ok] at e
      obtain ⟨b, e1, e⟩ := e
      cases e
      obtain ⟨b', e2, h2⟩ := list_near hl (fun x hx v e => ih x hx (hm _ (List.of_mem_zip hx).1) v e) e1
      exact ⟨.array b', by simp only [fromJson, e2]; rfl, .array h2.length_eq (forall₂_get h2)⟩
  | @object m m' hk hh ih =>
    intro hm v e
    cases hm with
    | object ho hm =>
      simp only [fromJson] at e ⊢
      rw [← marker_near hk hh]
      split at e
      · exact marked_near hk hh e
      · rw [Out.bind_eq_ok] at e
        obtain ⟨b, e1, e⟩ := e
        cases e
        obtain ⟨b', e2, h2⟩ := entries_near hk (fun x hx v e => ih x hx (hm _ _ (List.of_mem_zip hx).1) v e) e1
        have hkeys := forall₂_keys (R := fun j w => fromJson env j = .ok w) (fromJsonEntries_forall₂ e1)
        have hn : (b.map Prod.fst).Nodup := hkeys ▸ made_nodup ho
        have hn' : (b'.map Prod.fst).Nodup := forall₂_keys (R := NearTo) h2 ▸ hn
        refine ⟨.map (env.mapOrd b'), by
          simp only [e2]
          show Out.ok (Value.map (env.mapOrd (collectMap b'))) = _
          rw [collectMap_eq hn'], ?_⟩
        rw [collectMap_eq hn]
        exact nearTo_map hn h2 (hord b) (hord b')

/-- The same contents first, then floats that have changed a little. -/
theorem same_near {u v w : Value} (h : SameAs u v) (h' : NearTo v w) : NearTo u w := by
  induction h' generalizing u with
  | same h' => exact .same (h.trans h')
  | double h' => cases h; exact .double h'
  | polar hm ha =>
    cases h with
    | imaginary h => cases h; exact .polar hm ha
  | @array a a' hl _ ih =>
    cases h with
    | @array b _ hl2 h =>
      refine .array (hl2.trans hl) fun i x z hx hz => ?_
      have hi : i < a.length := by rw [← hl2]; exact (List.getElem?_eq_some_iff.mp hx).1
      exact ih i a[i] z (List.getElem?_eq_getElem hi) hz (h i x a[i] hx (List.getElem?_eq_getElem hi))
  | @map m m' hl hk _ ih =>
    cases h with
    | map hl2 hk2 h =>
      refine .map (hl2.trans hl) (fun k => (hk2 k).trans (hk k)) fun k x z hx hz => ?_
      obtain ⟨y, hy⟩ := (hk2 k).mp ⟨x, hx⟩
      exact ih k y z hy hz (h k x y hx hy)

theorem store_near {env : Env} (hord : HashOrder env.mapOrd) {j j' : SJValue} (h : JsonNear j j') (hm : j.Made (fun _ => True))
    {s : Store} (e : Store.fromJson env j = .ok s) : ∃ s', Store.fromJson env j' = .ok s' ∧ NearTo (.map s) (.map s') := by
  unfold Store.fromJson at e
  cases e1 : fromJson env j with
  | ok v =>
    rw [e1] at e
    obtain ⟨v', e2, hn⟩ := fromJson_near hord h hm v e1
    unfold Store.fromJson
    rw [e2]
    have one : ∀ {v v' : Value}, NearTo v v' → NearTo (.map [(Store.kJson, v)]) (.map [(Store.kJson, v')]) := by
      intro v v' h
      exact nearTo_map (m := [(Store.kJson, v)]) (m' := [(Store.kJson, v')]) (by simp) (.cons ⟨rfl, h⟩ .nil) (.refl _) (.refl _)
    cases hn with
    | same h =>
      cases h with
      | map hl hk h => cases e; exact ⟨_, rfl, .same (.map hl hk h)⟩
      | array hl h => cases e; exact ⟨_, rfl, one (.same (.array hl h))⟩
      | integer h => cases e; exact ⟨_, rfl, one (.same (.integer h))⟩
      | imaginary h => cases e; exact ⟨_, rfl, one (.same (.imaginary h))⟩
      | character c => cases e; exact ⟨_, rfl, one (.same (.character c))⟩
      | string s => cases e; exact ⟨_, rfl, one (.same (.string s))⟩
      | binary b => cases e; exact ⟨_, rfl, one (.same (.binary b))⟩
      | boolean b => cases e; exact ⟨_, rfl, one (.same (.boolean b))⟩
      | timestamp t => cases e; exact ⟨_, rfl, one (.same (.timestamp t))⟩
      | json j => cases e; exact ⟨_, rfl, one (.same (.json j))⟩
      | null => cases e; exact ⟨_, rfl, one (.same .null)⟩
      | single x => cases e; exact ⟨_, rfl, one (.same (.single x))⟩
      | double x => cases e; exact ⟨_, rfl, one (.same (.double x))⟩
      | timezone n => cases e; exact ⟨_, rfl, one (.same (.timezone n))⟩
      | ipv4 a b c d => cases e; exact ⟨_, rfl, one (.same (.ipv4 a b c d))⟩
      | ipv6 a b c d x y z w => cases e; exact ⟨_, rfl, one (.same (.ipv6 a b c d x y z w))⟩
    | double h => cases e; exact ⟨_, rfl, one (.double h)⟩
    | polar h h' => cases e; exact ⟨_, rfl, one (.polar h h')⟩
    | array hl h => cases e; exact ⟨_, rfl, one (.array hl h)⟩
    | map hl hk h => cases e; exact ⟨_, rfl, .map hl hk h⟩
  | err x => rw [e1] at e; cases e
  | panic x => rw [e1] at e; cases e

/-- C103 for texts and any floats, in part: a store that was imported from a JSON text is, exported as a text, compact or
indented, and imported once more, the same but for the last digits of its floats: none has changed by more than two
parts in 10¹⁵. Missing: stores with timestamps (`C103_refuted_timestamp`), floats within 10⁻⁴ of the largest one, and
one map under the key `JSON` (`C103_store_exact`). -/
theorem C103_text_near_partial {env : Env} (hs : env.Serde) (hord : HashOrder env.mapOrd) {text : List Char} {s : Store}
    (e : Store.fromJsonBytes env text = .ok s) (ht : ∀ t, ¬ Sub (.timestamp t) (.map s))
    (hf : ∀ x, HasFloat x (.map s) → |f64Value x| ≤ 17975 * 10 ^ 304) (hm : ∀ m, s ≠ [("JSON".toList, .map m)]) :
    ∃ j s', Store.toJson env true s = some j ∧ Store.fromJsonBytes env (print j) = .ok s' ∧
      Store.fromJsonBytes env (pretty 0 j) = .ok s' ∧ NearTo (.map s) (.map s') := by
  obtain ⟨j, e1, e2⟩ := (C36_text_errors env text).2 s e
  rw [hs.parse] at e1
  obtain ⟨hmade, hdepth⟩ := C84_made e1
  obtain ⟨j', s', e3, e4, h⟩ := (C103_store_exact hord hmade e2).mpr ⟨fun t h => absurd h (ht t), hm⟩
  have hmade' : j'.Made fun b => |f64Value b| ≤ 17975 * 10 ^ 304 := by
    have htidy := tidy_store hord hmade e2
    rcases store_toJson e3 with ⟨v, rfl, e5⟩ | e5
    · cases htidy
      rename_i h
      obtain ⟨j'', e6, hm⟩ := (h _ v (List.mem_singleton_self _)).written (P := fun b => |f64Value b| ≤ 17975 * 10 ^ 304) true
        fun x hx => hf x (hx.map (List.mem_singleton_self _))
      rw [e5, Option.some.injEq] at e6
      exact e6 ▸ hm
    · obtain ⟨j'', e6, hm⟩ := htidy.written (P := fun b => |f64Value b| ≤ 17975 * 10 ^ 304) true hf
      rw [e5, Option.some.injEq] at e6
      exact e6 ▸ hm
  obtain ⟨j'', hn, p1, p2⟩ := C83_near_partial hmade' (le_trans (depth_store hord hmade e2 e3) hdepth)
  obtain ⟨s'', e5, hn'⟩ := store_near hord hn (made_mono hmade' fun _ _ => trivial) e4
  refine ⟨j', s'', e3, ?_, ?_, same_near h hn'⟩
  · simp only [Store.fromJsonBytes, hs.parse, p1, e5]
  · simp only [Store.fromJsonBytes, hs.parse, p2, e5]

theorem whole_store {env : Env} (hs : env.Serde) : Store.fromJsonBytes env "9007199254740991e0".toList =
    .ok [("JSON".toList, .double 0x433FFFFFFFFFFFFF)] := by
  unfold Store.fromJsonBytes
  rw [hs.parse, parse_whole]
  rfl

-- a float that changes
example : ∃ text s j s', Store.fromJsonBytes serdeEnv text = .ok s ∧ s = [("JSON".toList, .double 0x433FFFFFFFFFFFFF)] ∧
    Store.toJson serdeEnv true s = some j ∧ Store.fromJsonBytes serdeEnv (print j) = .ok s' ∧ NearTo (.map s) (.map s') := by
  have subs : ∀ x, Sub x (.map [("JSON".toList, .double 0x433FFFFFFFFFFFFF)]) → (∃ m, x = .map m) ∨ x = .double 0x433FFFFFFFFFFFFF := by
    intro x h
    rcases h with _ | _ | ⟨hm, h⟩
    · exact .inl ⟨_, rfl⟩
    · simp only [List.mem_singleton, Prod.mk.injEq] at hm
      obtain ⟨_, rfl⟩ := hm
      cases h
      exact .inr rfl
  obtain ⟨j, s', h1, h2, _, h3⟩ := C103_text_near_partial serdeEnv_serde (fun l => .refl l) (whole_store serdeEnv_serde)
    (fun t h => by simpa using subs _ h)
    (fun x h => by
      have hx : x = 0x433FFFFFFFFFFFFF := by
        rcases h with h | ⟨y, h | h⟩ <;> simpa using subs _ h
      subst hx
      have h1 : |f64Value 0x433FFFFFFFFFFFFF| ≤ 10 ^ 304 := by
        have : |f64Value 0x433FFFFFFFFFFFFF| ≤ 10 ^ 16 := by decide +kernel
        exact this.trans (pow_le_pow_right₀ (by norm_num) (by norm_num))
      have h2 : (1 : ℚ) * 10 ^ 304 ≤ 17975 * 10 ^ 304 := mul_le_mul_of_nonneg_right (by norm_num) (by positivity)
      rw [one_mul] at h2
      exact h1.trans h2) (by simp)
  exact ⟨_, _, j, s', whole_store serdeEnv_serde, rfl, h1, h2, h3⟩

/-- C103 for texts is violated by floats with many digits: the text `9007199254740991e0` is imported as a store whose
export is imported as another store. -/
theorem C103_refuted_text_float {env : Env} (hs : env.Serde) : ∃ text s j s', Store.fromJsonBytes env text = .ok s ∧
    Store.toJson env true s = some j ∧ Store.fromJsonBytes env (print j) = .ok s' ∧ ¬ SameAs (.map s) (.map s') := by
  refine ⟨_, _, .number (.float 0x433FFFFFFFFFFFFF), [("JSON".toList, .double 0x433FFFFFFFFFFFFE)], whole_store hs, ?_, ?_, ?_⟩
  · have : SJValue.ofF64 0x433FFFFFFFFFFFFF = some (.float 0x433FFFFFFFFFFFFF) := by decide +kernel
    simp [Store.toJson, toJson, SJValue.get, Store.kJson, this]
  · unfold Store.fromJsonBytes
    rw [hs.parse, parse_witness.1, parse_witness.2]
    rfl
  · intro h
    cases h with
    | map _ _ h =>
      have := h "JSON".toList _ _ (List.mem_singleton_self _) (List.mem_singleton_self _)
      generalize hx : (0x433FFFFFFFFFFFFF : UInt64) = x at this
      generalize hy : (0x433FFFFFFFFFFFFE : UInt64) = y at this
      cases this
      exact absurd (hx.trans hy.symm) (by decide)

end Souris
