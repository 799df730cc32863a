import Verif.Spec.Size
import Verif.Lemmas.Format

/-! # Lemmas about the sizes of files -/

namespace Souris

open Value

namespace Fixed

theorem Dated.array {a : List Value} (h : Dated (.array a)) {v : Value} (hv : v ∈ a) : Dated v :=
  ⟨⟨fun i hi => h.1.1 i (.array hv hi), fun z hz => h.1.2.1 z (.array hv hz), fun m hm => h.1.2.2 m (.array hv hm)⟩,
    fun t ht => h.2 t (.array hv ht)⟩

theorem Dated.map {m : List (List Char × Value)} (h : Dated (.map m)) {k : List Char} {v : Value}
    (hv : (k, v) ∈ m) : Dated v :=
  ⟨⟨fun i hi => h.1.1 i (.map hv hi), fun z hz => h.1.2.1 z (.map hv hz), fun m hm => h.1.2.2 m (.map hv hm)⟩,
    fun t ht => h.2 t (.map hv ht)⟩

/-! ## The cost of a value -/

theorem costList_eq (env : Env) (w : Nat) (c : Char → Nat) (b : Nat) (a : List Value) :
    costList env w c b a = (a.map (cost env w c b)).sum := by
  induction a with
  | nil => simp [costList]
  | cons v a ih => simp [costList, ih]

theorem costEntries_eq (env : Env) (w : Nat) (c : Char → Nat) (b : Nat) (m : List (List Char × Value)) :
    costEntries env w c b m = (m.map fun x => (w + (x.1.map c).sum) + cost env w c b x.2).sum := by
  induction m with
  | nil => simp [costEntries]
  | cons x m ih => simp [costEntries, ih]

/-- Costs add up. -/
theorem cost_split (env : Env) (w : Nat) (c : Char → Nat) (b : Nat) (v : Value) :
    cost env w c b v = cost env w (fun _ => 0) b v + cost env 0 c 0 v := by
  induction v using Value.induct with
  | h v iha ihm =>
    cases v with
    | array a =>
      simp only [cost, costList_eq]
      have : (a.map (cost env w c b)).sum = (a.map (cost env w (fun _ => 0) b)).sum + (a.map (cost env 0 c 0)).sum := by
        rw [← List.sum_map_add]
        exact congrArg _ (List.map_congr_left fun v hv => iha a rfl v hv)
      omega
    | map m =>
      simp only [cost, costEntries_eq]
      have : (m.map fun x => (w + (x.1.map c).sum) + cost env w c b x.2).sum
          = (m.map fun x => (w + (x.1.map fun _ => 0).sum) + cost env w (fun _ => 0) b x.2).sum
            + (m.map fun x => (0 + (x.1.map c).sum) + cost env 0 c 0 x.2).sum := by
        rw [← List.sum_map_add]
        refine congrArg _ (List.map_congr_left fun x hx => ?_)
        have := ihm m rfl x.1 x.2 hx
        simp only [List.map_const', List.sum_replicate_nat, Nat.mul_zero, Nat.add_zero, Nat.zero_add]
        omega
      omega
    | _ => simp [cost]

/-- The text that is collected for the coder is all the text, each as often as it occurs. -/
theorem allText_sum (env : Env) (c : Char → Nat) (stack : List Value) :
    ((Store.allText env stack).map c).sum = (stack.map (cost env 0 c 0)).sum := by
  induction stack using Store.allText.induct env with
  | case1 => simp [Store.allText]
  | case2 v stack ih =>
    rw [Store.allText, List.map_append, List.sum_append, ih, List.map_append, List.sum_append, List.map_reverse,
      List.sum_reverse, List.map_cons, List.sum_cons, ← Nat.add_assoc]
    congr 1
    cases v with
    | map m =>
      simp only [Store.textOf, cost, costEntries_eq, Nat.zero_add, List.map_map]
      induction m with
      | nil => simp
      | cons x m ih' =>
        have : ((m.flatMap Prod.fst).map c).sum + (m.map (cost env 0 c 0 ∘ Prod.snd)).sum
            = (m.map fun x => (x.1.map c).sum + cost env 0 c 0 x.2).sum := by
          clear ih ih'
          induction m with
          | nil => simp
          | cons y m ih =>
            simp only [List.flatMap_cons, List.map_append, List.sum_append, List.map_cons, List.sum_cons,
              Function.comp_apply]
            omega
        simp only [List.flatMap_cons, List.map_append, List.sum_append, List.map_cons, List.sum_cons,
          Function.comp_apply]
        omega
    | array a => simp [Store.textOf, cost, costList_eq]
    | _ => simp [Store.textOf, cost]

/-! ## Bytes written -/

/-- If every text is written within its cost and 11 bytes, then every value is written within its cost, 36 bytes
for every value and key, and the bytes of binary data. -/
theorem ser_cost {env : Env} (hord : HashOrder env.byteOrd) {h : Option (Huffman Char)} {c : Char → Nat} (v : Value) :
    (∀ t, Text env t v → ∀ b, serString h t = .ok b → 8 * b.length ≤ 88 + (t.map c).sum) →
    Dated v → v.size env < 2 ^ 64 → ∀ b, Value.ser env h v = .ok b → 8 * b.length ≤ cost env 288 c 8 v := by
  induction v using Value.induct with
  | h v iha ihm =>
    intro ht hs hsz b e
    cases v with
    | character x =>
      simp only [Value.ser, Out.ok.injEq] at e
      have := u32_length (n := x.toNat) (Value.char_lt x)
      rw [← e]; simp only [List.length_cons, cost]; omega
    | string s =>
      have := ht s (.string s) b (by simpa only [Value.ser] using e)
      simp only [cost]
      omega
    | binary d =>
      simp only [Value.size] at hsz
      simp only [Value.ser] at e
      rw [Out.bind_eq_ok] at e
      obtain ⟨⟨ct, bs⟩, e1, e⟩ := e
      simp only [Out.pure_eq, Out.ok.injEq] at e
      obtain ⟨ct', bs', e2, _, hl, _⟩ := C25_never_expands env.lz hord d (by omega)
      rw [e1, Out.ok.injEq, Prod.mk.injEq] at e2
      rw [← e2.2] at hl
      rw [← e]; simp only [List.length_cons, cost]; omega
    | boolean x => simp only [Value.ser, Out.ok.injEq] at e; rw [← e]; simp [cost]
    | integer i =>
      simp only [Value.ser, Out.ok.injEq] at e
      have := ser_length_any (hs.1.1 i (.refl _)).serialisable.toWF.len
      rw [← e]; simp only [List.length_cons, cost]; omega
    | imaginary z =>
      simp only [Value.ser, Out.ok.injEq] at e
      have hz := hs.1.2.1 z (.refl _)
      rw [← e]
      simp only [List.length_cons, cost]
      cases hz with
      | cartesian h1 h2 =>
        have := ser_length_any h1.serialisable.toWF.len
        have := ser_length_any h2.serialisable.toWF.len
        simp only [Imaginary.ser, List.length_append]
        omega
      | polar m a => simp [Imaginary.ser]
    | timestamp t =>
      simp only [Value.ser, Out.ok.injEq] at e
      obtain ⟨⟨⟨hy1, hy2⟩, ⟨hm1, hm2⟩, ⟨hd1, hd2⟩⟩, h1, h2, h3, h4⟩ := hs.2 t (.refl _)
      have hdays := monthDays_le t.year t.month
      have a1 := u32_length (n := t.month) (by omega)
      have a2 := u32_length (n := t.day) (by omega)
      have a3 := u32_length (n := t.hour) (by omega)
      have a4 := u32_length (n := t.minute) (by omega)
      have a5 := u32_length (n := t.sec) (by omega)
      have a6 := u32_length (n := t.nano) (by omega)
      have hys : IsSigned 4 t.year := by
        constructor
        · calc (-(2 ^ (8 * 4 - 1)) : Int) ≤ -262143 := by norm_num
            _ ≤ _ := hy1
        · calc t.year ≤ 262142 := hy2
            _ < (2 ^ (8 * 4 - 1) : Int) := by norm_num
      have a0 := (C07_size_le (k := 4) (by unfold Width; decide)).2.1 t.year hys
      rw [← e]
      simp only [Value.serTimestamp, List.length_cons, List.length_append, cost]
      omega
    | json j =>
      simp only [Value.ser] at e
      rw [Out.bind_eq_ok] at e
      obtain ⟨bs, e1, e⟩ := e
      simp only [Out.pure_eq, Out.ok.injEq] at e
      have := ht _ (.json j) bs e1
      rw [← e]; simp only [List.length_cons, cost]; omega
    | null => simp only [Value.ser, Out.ok.injEq] at e; rw [← e]; simp [cost]
    | single x => simp only [Value.ser, Out.ok.injEq] at e; rw [← e]; simp [cost]
    | double x => simp only [Value.ser, Out.ok.injEq] at e; rw [← e]; simp [cost]
    | array a =>
      simp only [Value.size] at hsz
      simp only [Value.ser] at e
      rw [Out.bind_eq_ok] at e
      obtain ⟨bs, e1, e⟩ := e
      simp only [Out.pure_eq, Out.ok.injEq] at e
      have hl := serLen_length (t := .array) (n := a.length) (by have := sizeList_length env a; omega)
      have key : ∀ (a' : List Value) (bs : List UInt8), (∀ v ∈ a', v ∈ a) → Value.serList env h a' = .ok bs →
          8 * bs.length ≤ costList env 288 c 8 a' := by
        intro a'
        induction a' with
        | nil => intro bs _ e; simp only [Value.serList, Out.ok.injEq] at e; subst e; simp
        | cons v a' ih =>
          intro bs hsub e
          simp only [Value.serList] at e
          rw [Out.bind_eq_ok] at e
          obtain ⟨b1, e1, e⟩ := e
          rw [Out.bind_eq_ok] at e
          obtain ⟨b2, e2, e⟩ := e
          simp only [Out.pure_eq, Out.ok.injEq] at e
          have hv := hsub v (by simp)
          have h1 := iha a rfl v hv (fun t h => ht t (.array hv h)) (Dated.array hs hv)
            (by have := sizeList_mem env hv; omega) b1 e1
          have h2 := ih b2 (fun w hw => hsub w (by simp [hw])) e2
          rw [← e]
          simp only [List.length_append, costList]
          omega
      have := key a bs (fun _ h => h) e1
      rw [← e, List.length_append]
      simp only [cost]
      omega
    | map m =>
      simp only [Value.size] at hsz
      simp only [Value.ser] at e
      rw [Out.bind_eq_ok] at e
      obtain ⟨bs, e1, e⟩ := e
      simp only [Out.pure_eq, Out.ok.injEq] at e
      have hl := serLen_length (t := .map) (n := m.length) (by have := sizeEntries_length env m; omega)
      have key : ∀ (m' : List (List Char × Value)) (bs : List UInt8), (∀ x ∈ m', x ∈ m) →
          Value.serEntries env h m' = .ok bs → 8 * bs.length ≤ costEntries env 288 c 8 m' := by
        intro m'
        induction m' with
        | nil => intro bs _ e; simp only [Value.serEntries, Out.ok.injEq] at e; subst e; simp
        | cons x m' ih =>
          obtain ⟨k, v⟩ := x
          intro bs hsub e
          simp only [Value.serEntries] at e
          rw [Out.bind_eq_ok] at e
          obtain ⟨b0, e0, e⟩ := e
          rw [Out.bind_eq_ok] at e
          obtain ⟨b1, e1, e⟩ := e
          rw [Out.bind_eq_ok] at e
          obtain ⟨b2, e2, e⟩ := e
          simp only [Out.pure_eq, Out.ok.injEq] at e
          have hv := hsub (k, v) (by simp)
          have hmem := sizeEntries_mem env hv
          have h0 := ht k (.key hv) b0 e0
          have h1 := ihm m rfl k v hv (fun t h => ht t (.map hv h)) (Dated.map hs hv) (by omega) b1 e1
          have h2 := ih b2 (fun w hw => hsub w (by simp [hw])) e2
          rw [← e]
          simp only [List.length_append, costEntries]
          omega
      have := key m bs (fun _ h => h) e1
      rw [← e, List.length_append]
      simp only [cost]
      omega
    | timezone n =>
      simp only [Value.ser] at e
      rw [Out.bind_eq_ok] at e
      obtain ⟨bs, e1, e⟩ := e
      simp only [Out.pure_eq, Out.ok.injEq] at e
      have := ht n (.timezone n) bs e1
      rw [← e]; simp only [List.length_cons, cost]; omega
    | ipv4 a b c d => simp only [Value.ser, Out.ok.injEq] at e; rw [← e]; simp [cost]
    | ipv6 a b c d x f g i =>
      simp only [Value.ser, Out.ok.injEq] at e
      rw [← e]
      simp [cost, Value.le16]

/-! ## Codes of a fixed length -/

/-- The lowest `k` bits of a number. -/
def bitsOf : Nat → Nat → List Bool
  | 0, _ => []
  | k + 1, n => (n % 2 = 1) :: bitsOf k (n / 2)

theorem bitsOf_length (k n : Nat) : (bitsOf k n).length = k := by
  induction k generalizing n with
  | zero => rfl
  | succ k ih => simp [bitsOf, ih]

theorem bitsOf_inj {k m n : Nat} (hm : m < 2 ^ k) (hn : n < 2 ^ k) (e : bitsOf k m = bitsOf k n) : m = n := by
  induction k generalizing m n with
  | zero => omega
  | succ k ih =>
    simp only [bitsOf, List.cons.injEq, decide_eq_decide] at e
    have := ih (m := m / 2) (n := n / 2) (by rw [pow_succ] at hm; omega) (by rw [pow_succ] at hn; omega) e.2
    omega

/-- A text over `2^k` characters has a code of `k` bits for each, hence the coder of it is no longer. -/
theorem codeLen_sum {ord : List (Node Char × Nat) → List (Node Char × Nat)} (hord : HashOrder ord)
    {data : List Char} (hne : data ≠ []) {root : Node Char} (e : Huffman.new ord data = .ok (Huffman.ofRoot root))
    (hmem : ∀ x ∈ data, x ∈ root.leaves) {abc : List Char} (habc : ∀ x ∈ data, x ∈ abc) {k : Nat}
    (hk : abc.length ≤ 2 ^ k) : (data.map (Huffman.codeLen root)).sum ≤ k * data.length := by
  obtain ⟨h, bits, e1, hl⟩ := C19_optimal hord data hne (fun x => bitsOf k (abc.idxOf x)) (by
    intro x hx y hy hxy hp
    have hlen : (bitsOf k (abc.idxOf x)).length = (bitsOf k (abc.idxOf y)).length := by simp only [bitsOf_length]
    have heq := bitsOf_inj ((List.idxOf_lt_length_iff.mpr (habc x hx)).trans_le hk)
      ((List.idxOf_lt_length_iff.mpr (habc y hy)).trans_le hk) (hp.eq_of_length hlen)
    exact hxy ((List.idxOf_inj (habc x hx)).mp heq))
  obtain ⟨cs, hcs⟩ := Huffman.exists_codes root data hmem
  simp only [Huffman.newAndEncode, e, Huffman.encode_ok root hcs, Out.ok_bind, Out.pure_eq, Out.ok.injEq,
    Prod.mk.injEq] at e1
  rw [← e1.2] at hl
  have hlen : (Bits.ofList cs.flatten).len = (data.map (Huffman.codeLen root)).sum := by
    show cs.flatten.length = _
    rw [List.length_flatten]
    congr 1
    have : data.map (Huffman.codeLen root) = (data.map (Huffman.codeOf root)).map (fun c => (c.getD []).length) := by
      rw [List.map_map]; rfl
    rw [this, hcs, List.map_map]
    exact List.map_congr_left (fun _ _ => rfl)
  rw [hlen] at hl
  simp only [bitsOf_length, List.map_const', List.sum_replicate_nat] at hl
  rw [Nat.mul_comm]
  exact hl

theorem serString_cost {root : Node Char} {t : List Char} (ht : ∀ x ∈ t, x ∈ root.leaves)
    (hl : (t.map (Huffman.codeLen root)).sum < 2 ^ 64) {b : List UInt8}
    (e : serString (some (Huffman.ofRoot root)) t = .ok b) :
    8 * b.length ≤ 88 + (t.map (Huffman.codeLen root)).sum := by
  obtain ⟨cs, hcs⟩ := Huffman.exists_codes root t ht
  have hlen : cs.flatten.length = (t.map (Huffman.codeLen root)).sum := by
    rw [List.length_flatten]
    congr 1
    have : t.map (Huffman.codeLen root) = (t.map (Huffman.codeOf root)).map (fun c => (c.getD []).length) := by
      rw [List.map_map]; rfl
    rw [this, hcs, List.map_map]
    exact List.map_congr_left (fun _ _ => rfl)
  simp only [Value.serString, Huffman.encode_ok _ hcs, Bits.ser, Bits.properBytes_ofList, Out.ok_bind,
    Out.pure_eq, Out.ok.injEq] at e
  have h2 := Bits.pack_length cs.flatten
  have h3 := usize_length (n := cs.flatten.length) (by omega)
  rw [← e]
  simp only [List.length_cons, List.length_append]
  show 8 * ((Integer.ofUnsigned 8 cs.flatten.length).ser.2.length + _ + 1) ≤ _
  omega

theorem serString_nil {b : List UInt8} (e : serString none [] = .ok b) : b.length ≤ 11 := by
  simp only [Value.serString, Out.ok.injEq] at e
  rw [← e]
  have := usize_length (n := (utf8 []).length) (by simp [utf8])
  simp only [List.length_cons, List.length_append]
  simp [utf8] at this ⊢
  omega

theorem text_sum_le {env : Env} {t : List Char} {v : Value} (h : Text env t v) (c : Char → Nat) :
    (t.map c).sum ≤ cost env 0 c 0 v := by
  have mem_le : ∀ {l : List Nat} {n : Nat}, n ∈ l → n ≤ l.sum := fun h => List.le_sum_of_mem h
  induction h with
  | string s => simp [cost]
  | json j => simp [cost]
  | timezone n => simp [cost]
  | key h =>
    simp only [cost, costEntries_eq]
    have := mem_le (List.mem_map_of_mem (f := fun x : List Char × Value => (0 + (x.1.map c).sum) + cost env 0 c 0 x.2) h)
    simp only at this
    omega
  | array hv _ ih =>
    simp only [cost, costList_eq]
    have := mem_le (List.mem_map_of_mem (f := cost env 0 c 0) hv)
    omega
  | map hv _ ih =>
    simp only [cost, costEntries_eq]
    have := mem_le (List.mem_map_of_mem (f := fun x : List Char × Value => (0 + (x.1.map c).sum) + cost env 0 c 0 x.2) hv)
    simp only at this
    omega

theorem cost_size (env : Env) (v : Value) : cost env 1 (fun _ => 1) 1 v = v.size env := by
  induction v using Value.induct with
  | h v iha ihm =>
    cases v with
    | array a =>
      simp only [cost, Value.size]
      congr 1
      replace iha := iha a rfl
      clear ihm
      induction a with
      | nil => simp [costList, sizeList]
      | cons v a ih =>
        simp only [costList, sizeList]
        rw [iha v (by simp), ih (fun w hw => iha w (by simp [hw]))]
    | map m =>
      simp only [cost, Value.size]
      congr 1
      replace ihm := ihm m rfl
      clear iha
      induction m with
      | nil => simp [costEntries, sizeEntries]
      | cons x m ih =>
        obtain ⟨k, v⟩ := x
        simp only [costEntries, sizeEntries]
        rw [ihm k v (by simp), ih (fun k' w hw => ihm k' w (by simp [hw]))]
        simp
    | _ => simp [cost, Value.size]

theorem cost_const (env : Env) (k : Nat) (v : Value) : cost env 0 (fun _ => k) 0 v = k * cost env 0 (fun _ => 1) 0 v := by
  rw [show cost env 0 (fun _ => k) 0 v = ([v].map (cost env 0 (fun _ => k) 0)).sum by simp,
    show cost env 0 (fun _ => 1) 0 v = ([v].map (cost env 0 (fun _ => 1) 0)).sum by simp, ← allText_sum, ← allText_sum]
  simp [Nat.mul_comm]

theorem cost_size_le (env : Env) {w k b n : Nat} (hw : w ≤ n) (hk : k ≤ n) (hb : b ≤ n) (v : Value) :
    cost env w (fun _ => k) b v ≤ n * v.size env := by
  have mul : ∀ l : Nat, k * l ≤ n * l := fun l => Nat.mul_le_mul_right l hk
  induction v using Value.induct with
  | h v iha ihm =>
    cases v with
    | array a =>
      simp only [cost, Value.size]
      have : costList env w (fun _ => k) b a ≤ n * sizeList env a := by
        replace iha := iha a rfl
        clear ihm
        induction a with
        | nil => simp [costList]
        | cons v a ih =>
          have h1 := iha v (by simp)
          have h2 := ih (fun w hw => iha w (by simp [hw]))
          simp only [costList, sizeList, Nat.mul_add]
          omega
      rw [Nat.mul_add]
      omega
    | map m =>
      simp only [cost, Value.size]
      have : costEntries env w (fun _ => k) b m ≤ n * sizeEntries env m := by
        replace ihm := ihm m rfl
        clear iha
        induction m with
        | nil => simp [costEntries]
        | cons x m ih =>
          obtain ⟨key, v⟩ := x
          have h1 := ihm key v (by simp)
          have h2 := ih (fun k' w hw => ihm k' w (by simp [hw]))
          have h3 := mul key.length
          simp only [costEntries, sizeEntries, Nat.mul_add, List.map_const', List.sum_replicate_nat,
            Nat.mul_comm key.length]
          omega
      rw [Nat.mul_add]
      omega
    | string t =>
      have := mul t.length
      simp only [cost, Value.size, Nat.mul_add, List.map_const', List.sum_replicate_nat, Nat.mul_comm t.length]
      omega
    | json j =>
      have := mul (env.jsonPrint j).length
      simp only [cost, Value.size, Nat.mul_add, List.map_const', List.sum_replicate_nat,
        Nat.mul_comm (env.jsonPrint j).length]
      omega
    | timezone t =>
      have := mul t.length
      simp only [cost, Value.size, Nat.mul_add, List.map_const', List.sum_replicate_nat, Nat.mul_comm t.length]
      omega
    | binary d =>
      have : b * d.length ≤ n * d.length := Nat.mul_le_mul_right _ hb
      simp only [cost, Value.size, Nat.mul_add]
      omega
    | _ => simp only [cost, Value.size]; omega

/-- What is written, and with which coder. -/
theorem ser_shape_new (env : Env) (hb : HashOrder env.byteOrd) (hc : HashOrder env.charOrd) (s : Store) :
    ∃ (h : Option (Huffman Char)) (mb : List UInt8) (ct : BinaryCompression) (comp : List UInt8), Store.ser env s
        = .ok (Store.magic ++ ((((if h.isSome then (1 : UInt8) else 0) <<< 7) ||| ct.toByte) :: comp)) ∧
      Value.ser env h (.map s) = .ok mb ∧
      Binary.ser env.lz env.byteOrd ((h.elim [] Huffman.serChar) ++ mb) = .ok (ct, comp) ∧
      ((h = none ∧ Store.allText env [.map s] = []) ∨ ∃ root, h = some (Huffman.ofRoot root) ∧
        Store.allText env [.map s] ≠ [] ∧ Huffman.new env.charOrd (Store.allText env [.map s]) = .ok (Huffman.ofRoot root) ∧
        root.leaves.Nodup ∧ ∀ x, x ∈ root.leaves ↔ x ∈ Store.allText env [.map s]) := by
  have hb' : ∀ data, ∃ ct comp, Binary.ser env.lz env.byteOrd data = .ok (ct, comp) := by
    intro data
    obtain ⟨huff, e⟩ := C24_huffman_total hb data
    exact ⟨_, _, by simp only [Binary.ser, e]; rfl⟩
  by_cases hne : Store.allText env [.map s] = []
  · have hnew := (C17_new_total hc (Store.allText env [.map s])).2 hne
    obtain ⟨mb, e1⟩ := ser_total hb (h := none) (.inl rfl) (.map s)
    obtain ⟨ct, comp, e2⟩ := hb' mb
    refine ⟨none, mb, ct, comp, ?_, e1, e2, .inl ⟨rfl, hne⟩⟩
    unfold Store.ser
    simp only [hnew, e1, Out.ok_bind, Out.pure_eq, e2]
    rfl
  · obtain ⟨root, hnew, _, hnd, hleaves, _⟩ := Huffman.new_ok hc _ hne
    obtain ⟨mb, e1⟩ := ser_total hb (h := some (Huffman.ofRoot root)) (.inr ⟨_, rfl⟩) (.map s)
    obtain ⟨ct, comp, e2⟩ := hb' ((Huffman.ofRoot root).serChar ++ mb)
    refine ⟨some (Huffman.ofRoot root), mb, ct, comp, ?_, e1, e2, .inr ⟨root, rfl, hne, hnew, hnd, hleaves⟩⟩
    unfold Store.ser
    simp only [hnew, e1, Out.ok_bind, Out.pure_eq, e2]
    rfl

theorem sum_map_mul {α : Type} (n : Nat) (f : α → Nat) (l : List α) : (l.map fun x => n * f x).sum = n * (l.map f).sum := by
  induction l with
  | nil => simp
  | cons x l ih => simp [ih, Nat.mul_add]

theorem cost_scale (env : Env) (v : Value) : cost env 288 (fun _ => 0) 8 v = 8 * cost env 36 (fun _ => 0) 1 v := by
  induction v using Value.induct with
  | h v iha ihm =>
    cases v with
    | array a =>
      simp only [cost, costList_eq, Nat.mul_add, ← sum_map_mul]
      rw [List.map_congr_left fun v hv => iha a rfl v hv]
    | map m =>
      simp only [cost, costEntries_eq, Nat.mul_add, ← sum_map_mul]
      congr 1
      refine congrArg _ (List.map_congr_left fun x hx => ?_)
      have := ihm m rfl x.1 x.2 hx
      simp only [List.map_const', List.sum_replicate_nat]
      omega
    | _ => simp [cost] <;> omega

/-- The bytes of a file before compression. -/
theorem data_cost {env : Env} (hb : HashOrder env.byteOrd) (hc : HashOrder env.charOrd) {s : Store}
    (hs : Dated (.map s)) (hsz : (Value.map s).size env < 2 ^ 56) {abc : List Char} (habc : Over env abc (.map s))
    {k : Nat} (hk : abc.length ≤ 2 ^ k) {h : Option (Huffman Char)} {mb : List UInt8}
    (em : Value.ser env h (.map s) = .ok mb)
    (hcase : (h = none ∧ Store.allText env [.map s] = []) ∨ ∃ root, h = some (Huffman.ofRoot root) ∧
      Store.allText env [.map s] ≠ [] ∧ Huffman.new env.charOrd (Store.allText env [.map s]) = .ok (Huffman.ofRoot root) ∧
      root.leaves.Nodup ∧ ∀ x, x ∈ root.leaves ↔ x ∈ Store.allText env [.map s]) :
    ((h.elim [] Huffman.serChar) ++ mb).length < 2 ^ 64 ∧
      8 * ((h.elim [] Huffman.serChar) ++ mb).length ≤ 48 * abc.length + cost env 288 (fun _ => k) 8 (.map s) := by
  have htext : ∀ t, Text env t (.map s) → ∀ x ∈ t, x ∈ Store.allText env [.map s] := fun t ht x hx =>
    (mem_allText env [.map s] x).mpr ⟨t, _, List.mem_singleton.mpr rfl, ht, hx⟩
  have hover : ∀ x ∈ Store.allText env [.map s], x ∈ abc := by
    intro x hx
    obtain ⟨t, v, hv, ht, hxt⟩ := (mem_allText env [.map s] x).mp hx
    simp only [List.mem_singleton] at hv
    subst hv
    exact habc t ht x hxt
  have hchars : cost env 0 (fun _ => 1) 0 (.map s) = (Store.allText env [.map s]).length := by
    have := Fixed.allText_sum env (fun _ => 1) [.map s]
    simpa using this.symm
  have hsize : (Store.allText env [.map s]).length + cost env 1 (fun _ => 0) 1 (.map s) < 2 ^ 56 := by
    have h1 := Fixed.cost_split env 1 (fun _ => 1) 1 (.map s)
    rw [Fixed.cost_size] at h1
    omega
  have hsplit := Fixed.cost_split env 288 (fun _ => k) 8 (.map s)
  rw [Fixed.cost_const, hchars] at hsplit
  have hsmall := Fixed.cost_size_le env (w := 288) (k := 0) (b := 8) (n := 288) (by omega) (by omega) (by omega) (.map s)
  rw [List.length_append]
  rcases hcase with ⟨rfl, h0⟩ | ⟨root, rfl, hne, hnew, hnd, hleaves⟩
  · have := Fixed.ser_cost (c := fun _ => 0) hb (.map s) (fun t ht b e => by
      have : t = [] := by
        rw [List.eq_nil_iff_forall_not_mem]
        intro x hx
        have := htext t ht x hx
        rw [h0] at this
        cases this
      subst this
      have := Fixed.serString_nil e
      simp
      omega) hs (by omega) mb em
    simp only [Option.elim, List.length_nil]
    omega
  · have hn := Fixed.nodup_chars hnd
    have h21 := Fixed.codeLen_sum hc hne hnew (fun x hx => (hleaves x).mpr hx) (fun x hx => (hleaves x).mpr hx)
      (k := 21) hn
    have hkk := Fixed.codeLen_sum hc hne hnew (fun x hx => (hleaves x).mpr hx) hover hk
    have hsum : cost env 0 (Huffman.codeLen root) 0 (.map s)
        = ((Store.allText env [.map s]).map (Huffman.codeLen root)).sum := by
      have := Fixed.allText_sum env (Huffman.codeLen root) [.map s]
      simpa using this.symm
    have := Fixed.ser_cost (c := Huffman.codeLen root) hb (.map s) (fun t ht b e => by
      have hle := Fixed.text_sum_le ht (Huffman.codeLen root)
      exact Fixed.serString_cost (fun x hx => (hleaves x).mpr (htext t ht x hx)) (by omega) e) hs (by omega) mb em
    rw [Fixed.cost_split, hsum] at this
    have htree := Fixed.serChar_length root
    have hsub : root.leaves.length ≤ abc.length :=
      (hnd.subperm fun x hx => hover x ((hleaves x).mp hx)).length_le
    show root.serChar.length + _ < _ ∧ 8 * (root.serChar.length + _) ≤ _
    omega

/-- Data that can be held in memory. -/
theorem data_length {env : Env} (hb : HashOrder env.byteOrd) (hc : HashOrder env.charOrd) {s : Store}
    (hs : Dated (.map s)) (hsz : (Value.map s).size env < 2 ^ 53) {h : Option (Huffman Char)} {mb : List UInt8}
    (em : Value.ser env h (.map s) = .ok mb)
    (hcase : (h = none ∧ Store.allText env [.map s] = []) ∨ ∃ root, h = some (Huffman.ofRoot root) ∧
      Store.allText env [.map s] ≠ [] ∧ Huffman.new env.charOrd (Store.allText env [.map s]) = .ok (Huffman.ofRoot root) ∧
      root.leaves.Nodup ∧ ∀ x, x ∈ root.leaves ↔ x ∈ Store.allText env [.map s]) :
    ((h.elim [] Huffman.serChar) ++ mb).length < 2 ^ 59 := by
  have hn := nodup_chars (List.nodup_dedup (Store.allText env [.map s]))
  have := (data_cost hb hc hs (by omega) (abc := (Store.allText env [.map s]).dedup) (fun t ht x hx => List.mem_dedup.mpr
    ((mem_allText env [.map s] x).mpr ⟨t, _, List.mem_singleton.mpr rfl, ht, hx⟩)) (k := 21) hn em hcase).2
  have h2 := cost_size_le env (w := 288) (k := 21) (b := 8) (n := 288) (by omega) (by omega) (by omega) (.map s)
  omega

end Fixed

end Souris
