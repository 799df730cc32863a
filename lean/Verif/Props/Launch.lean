import Verif.Props.DiskNames
import Verif.Spec.Launch

/-! # C101: where the daemon keeps its files -/

namespace Souris

open Path

theorem follow_append (cur : Path) (cs ds : List (List Char)) : cur.follow (cs ++ ds) = (cur.follow cs).follow ds :=
  List.foldl_append

theorem lexical_follow (cur : Path) (cs : List (List Char)) : lexical cur cs = cur.follow cs := by
  induction cs generalizing cur with
  | nil => rfl
  | cons c cs ih =>
    show _ = (cur.step c).follow cs
    unfold lexical Path.step
    split_ifs <;> exact ih _

theorem components_join (a b : List Char) : components (a ++ '/' :: b) = components a ++ components b := by
  induction a with
  | nil => simp [components]
  | cons x a ih =>
    rw [List.cons_append, components, components, ih]
    split
    · rfl
    · cases h : components a with
      | nil => exact absurd h (pieces_components a).1
      | cons y ys => rfl

theorem names_iff {cwd : Path} {t : List Char} {p : Path} : Names cwd t p ↔ p = (origin cwd t).follow (components t) :=
  ⟨fun ⟨cs, h, e⟩ => by rw [e, components_pieces h], fun e => ⟨_, pieces_components t, e⟩⟩

theorem names_unique {cwd : Path} {t : List Char} {p q : Path} (h : Names cwd t p) (h' : Names cwd t q) : p = q := by
  rw [names_iff.mp h, names_iff.mp h']

theorem names_join {cwd : Path} {a b : List Char} (hb : b.head? ≠ some '/') {p : Path} (h : Names cwd a p) :
    Names cwd (joinPath a b) (p.follow (components b)) := by
  rw [names_iff] at h ⊢
  subst h
  unfold joinPath
  by_cases ha : a = []
  · subst ha
    rw [if_pos (.inr rfl)]
    unfold origin
    rw [if_neg hb, if_neg (by simp)]
    rfl
  · rw [if_neg (by simp [ha, hb])]
    have head : ∀ c : List Char, a ++ c ≠ [] → (a ++ c).head? = a.head? := fun c _ => by
      cases a with
      | nil => exact absurd rfl ha
      | cons x a => rfl
    split
    · next hl =>
      obtain ⟨a', rfl⟩ : ∃ a', a = a' ++ ['/'] := by
        obtain ⟨ys, hy⟩ := List.getLast?_eq_some_iff.mp hl
        exact ⟨ys, hy⟩
      have e1 : components (a' ++ ['/'] ++ b) = components a' ++ components b := by
        rw [List.append_assoc, List.singleton_append, components_join]
      have e2 : components (a' ++ ['/']) = components a' ++ [[]] := components_join a' []
      rw [e1, e2, follow_append, follow_append]
      unfold origin
      rw [head b (by simp)]
      rfl
    · rw [components_join, follow_append]
      unfold origin
      rw [head _ (by simp)]

/-- The settings name at most one directory. -/
theorem directory_unique {s : Surroundings} {p q : Path} (h : DirectoryIs s p) (h' : DirectoryIs s q) : p = q := by
  have home : ∀ {x y}, HomeIs s x → HomeIs s y → x = y := by
    intro x y hx hy
    cases hx with
    | fromHome e hne =>
      cases hy with
      | fromHome e' _ => rw [e] at e'; exact Option.some.inj e'
      | fromDatabase e' _ => rcases e' with e' | e' <;> rw [e] at e' <;> cases e'; exact absurd rfl hne
    | fromDatabase e hp =>
      cases hy with
      | fromHome e' hne => rcases e with e | e <;> rw [e] at e' <;> cases e'; exact absurd rfl hne
      | fromDatabase _ hp' => rw [hp] at hp'; exact Option.some.inj hp'
  have data : ∀ {p q}, DataIs s p → DataIs s q → p = q := by
    intro p q hp hq
    cases hp with
    | xdg e ha hp =>
      cases hq with
      | xdg e' _ hq => rw [e] at e'; cases e'; exact names_unique hp hq
      | home e' => exact absurd ha (e' _ e)
    | home e hh hp =>
      cases hq with
      | xdg e' ha => exact absurd ha (e _ e')
      | home _ hh' hq =>
        cases home hh hh'
        rw [names_unique hp hq]
  cases h with
  | named e hp =>
    cases h' with
    | named e' hp' => rw [e] at e'; cases e'; exact names_unique hp hp'
    | superuser e' => rw [e] at e'; cases e'
    | user e' => rw [e] at e'; cases e'
  | superuser e hs =>
    cases h' with
    | named e' => rw [e] at e'; cases e'
    | superuser => rfl
    | user _ hs' => rw [hs] at hs'; cases hs'
  | user e hs hp =>
    cases h' with
    | named e' => rw [e] at e'; cases e'
    | superuser _ hs' => rw [hs] at hs'; cases hs'
    | user _ _ hp' => rw [data hp hp']

theorem homeDir_iff (s : Surroundings) (h : List Char) : s.homeDir = some h ↔ HomeIs s h := by
  unfold Surroundings.homeDir
  cases hh : s.home with
  | none =>
    refine ⟨fun e => .fromDatabase (.inl hh) e, fun e => ?_⟩
    cases e with
    | fromHome e => rw [hh] at e; cases e
    | fromDatabase _ e => exact e
  | some x =>
    simp only
    split
    · next hx =>
      subst hx
      refine ⟨fun e => .fromDatabase (.inr hh) e, fun e => ?_⟩
      cases e with
      | fromHome e hne => rw [hh] at e; cases e; exact absurd rfl hne
      | fromDatabase _ e => exact e
    · next hx =>
      refine ⟨fun e => by cases e; exact .fromHome hh hx, fun e => ?_⟩
      cases e with
      | fromHome e => rw [hh] at e; exact e
      | fromDatabase e => rcases e with e | e <;> rw [hh] at e <;> cases e; exact absurd rfl hx

theorem dataDir_iff (s : Surroundings) (p : Path) : DataIs s p ↔ ∃ t, s.dataDir = some t ∧ Names s.cwd t p := by
  have fall : (∀ x, s.xdgDataHome = some x → x.head? ≠ some '/') →
      s.dataDir = s.homeDir.map (joinPath · ['.', 'l', 'o', 'c', 'a', 'l', '/', 's', 'h', 'a', 'r', 'e']) := by
    intro h
    unfold Surroundings.dataDir
    cases hx : s.xdgDataHome with
    | none => rfl
    | some x => simp only; rw [if_neg (h x hx)]
  have hlocal : ∀ p : Path, p.follow (components ['.', 'l', 'o', 'c', 'a', 'l', '/', 's', 'h', 'a', 'r', 'e']) =
      p ++ [".local".toList, "share".toList] := by
    intro p
    show (p ++ [_]) ++ [_] = _
    rw [List.append_assoc]
    rfl
  constructor
  · intro h
    cases h with
    | xdg e ha hp =>
      refine ⟨_, ?_, hp⟩
      unfold Surroundings.dataDir
      rw [e]
      simp only
      rw [if_pos ha]
    | home e hh hp =>
      refine ⟨_, by rw [fall e, (homeDir_iff s _).mpr hh]; rfl, ?_⟩
      rw [← hlocal]
      exact names_join (by simp) hp
  · rintro ⟨t, ht, hp⟩
    by_cases hx : ∃ x, s.xdgDataHome = some x ∧ x.head? = some '/'
    · obtain ⟨x, e, ha⟩ := hx
      unfold Surroundings.dataDir at ht
      rw [e] at ht
      simp only at ht
      rw [if_pos ha] at ht
      cases ht
      exact .xdg e ha hp
    · have hx : ∀ x, s.xdgDataHome = some x → x.head? ≠ some '/' := fun x e ha => hx ⟨x, e, ha⟩
      rw [fall hx, Option.map_eq_some_iff] at ht
      obtain ⟨h, hh, rfl⟩ := ht
      have hn : Names s.cwd h _ := names_iff.mpr rfl
      have := names_unique hp (names_join (by simp) hn)
      rw [hlocal] at this
      subst this
      exact .home hx ((homeDir_iff s h).mp hh) hn

theorem standard_iff {s : Surroundings} (hb : s.baseLocation = .unset) (p : Path) :
    DirectoryIs s p ↔ ∃ t, s.standardLocation = some t ∧ p = lexical (pathBegins s.cwd t) (components t) := by
  have hsouris : ∀ p : Path, p.follow (components ['s', 'o', 'u', 'r', 'i', 's', '/']) = p ++ ["souris".toList] := fun p => rfl
  unfold Surroundings.standardLocation
  constructor
  · intro h
    cases h with
    | named e => rw [hb] at e; cases e
    | superuser _ hs => rw [if_pos hs]; exact ⟨_, rfl, rfl⟩
    | user _ hs hp =>
      obtain ⟨t, ht, hn⟩ := (dataDir_iff s _).mp hp
      rw [if_neg (by rw [hs]; decide), ht]
      refine ⟨_, rfl, ?_⟩
      rw [lexical_follow, ← hsouris]
      exact names_iff.mp (names_join (by simp) hn)
  · rintro ⟨t, ht, rfl⟩
    rw [lexical_follow]
    split_ifs at ht with hs
    · cases ht
      exact .superuser hb hs
    · rw [Option.map_eq_some_iff] at ht
      obtain ⟨d, hd, rfl⟩ := ht
      have hn : Names s.cwd d _ := names_iff.mpr rfl
      have := names_iff.mp (names_join (b := ['s', 'o', 'u', 'r', 'i', 's', '/']) (by simp) hn)
      unfold pathBegins
      unfold origin at this
      rw [← this, hsouris]
      exact .user hb (by simpa using hs) ((dataDir_iff s _).mpr ⟨d, hd, hn⟩)

/-! ## Creating the directories -/

/-- What creating directories along a path does. -/
theorem createDirs_spec (fs : FS) (cur : Path) (cs : List (List Char)) :
    (∀ p, (createDirs fs cur cs).2 = some p → p = cur.follow cs) ∧
    (∀ q, (createDirs fs cur cs).1 q = fs q ∨ fs q = none ∧ (createDirs fs cur cs).1 q = some .dir ∧
      ∃ ds ds', cs = ds ++ ds' ∧ q = cur.follow ds) ∧
    ((∀ ds ds' b, cs = ds ++ ds' → fs (cur.follow ds) ≠ some (.file b)) → (createDirs fs cur cs).2 = some (cur.follow cs)) := by
  induction cs generalizing fs cur with
  | nil =>
    refine ⟨fun p h => ?_, fun q => .inl rfl, fun _ => rfl⟩
    cases h; rfl
  | cons c cs ih =>
    have step : ∀ (fs' : FS) (cur' : Path), cur' = cur.step c → createDirs fs cur (c :: cs) = createDirs fs' cur' cs →
        (∀ q, fs' q = fs q ∨ fs q = none ∧ fs' q = some .dir ∧ q = cur') →
        (∀ p, (createDirs fs cur (c :: cs)).2 = some p → p = cur.follow (c :: cs)) ∧
        (∀ q, (createDirs fs cur (c :: cs)).1 q = fs q ∨ fs q = none ∧ (createDirs fs cur (c :: cs)).1 q = some .dir ∧
          ∃ ds ds', c :: cs = ds ++ ds' ∧ q = cur.follow ds) ∧
        ((∀ ds ds' b, c :: cs = ds ++ ds' → fs (cur.follow ds) ≠ some (.file b)) →
          (createDirs fs cur (c :: cs)).2 = some (cur.follow (c :: cs))) := by
      rintro fs' cur' rfl e hfs
      rw [e]
      obtain ⟨i1, i2, i3⟩ := ih fs' (cur.step c)
      refine ⟨i1, fun q => ?_, fun h => i3 fun ds ds' b hd => ?_⟩
      · rcases i2 q with h | ⟨h1, h2, ds, ds', rfl, rfl⟩
        · rcases hfs q with h' | ⟨h1', h2', rfl⟩
          · exact .inl (h.trans h')
          · exact .inr ⟨h1', h.trans h2', [c], cs, rfl, rfl⟩
        · rcases hfs ((cur.step c).follow ds) with h' | ⟨_, h2', _⟩
          · exact .inr ⟨h' ▸ h1, h2, c :: ds, ds', rfl, rfl⟩
          · rw [h2'] at h1; cases h1
      · intro hf
        rcases hfs ((cur.step c).follow ds) with h' | ⟨_, h2', _⟩
        · exact h (c :: ds) ds' b (by rw [hd]; rfl) (h' ▸ hf)
        · rw [h2'] at hf; cases hf
    by_cases h1 : c = [] ∨ c = ['.']
    · exact step fs cur (by unfold Path.step; rw [if_pos h1]) (by rw [createDirs, if_pos h1]) fun q => .inl rfl
    by_cases h2 : c = ['.', '.']
    · exact step fs cur.dropLast (by unfold Path.step; rw [if_neg h1, if_pos h2]) (by rw [createDirs, if_neg h1, if_pos h2])
        fun q => .inl rfl
    have hs : cur ++ [c] = cur.step c := by unfold Path.step; rw [if_neg h1, if_neg h2]
    have hc : createDirs fs cur (c :: cs) = match fs (cur ++ [c]) with
      | some .dir => createDirs fs (cur ++ [c]) cs
      | some (.file _) => (fs, none)
      | none => createDirs (fs.set (cur ++ [c]) (some .dir)) (cur ++ [c]) cs := by
      rw [createDirs, if_neg h1, if_neg h2]
      rfl
    cases hn : fs (cur ++ [c]) with
    | none =>
      refine step (fs.set (cur ++ [c]) (some .dir)) _ hs (by rw [hc, hn]) fun q => ?_
      unfold FS.set
      split
      · next hq => exact .inr ⟨hq ▸ hn, rfl, hq⟩
      · exact .inl rfl
    | some x =>
      cases x with
      | dir => exact step fs _ hs (by rw [hc, hn]) fun q => .inl rfl
      | file b =>
        rw [hc, hn]
        refine ⟨fun p h => (by cases h), fun q => .inl rfl, fun h => ?_⟩
        exact absurd hn (hs ▸ h [c] cs b rfl)

/-- On a disk the directories are there afterwards, and a file in the way is an error. -/
theorem createDirs_tree {fs : FS} (ht : fs.Tree) {cur : Path} (hc : fs cur = some .dir) (cs : List (List Char)) :
    (createDirs fs cur cs).1.Tree ∧
    (∀ p, (createDirs fs cur cs).2 = some p → ∀ ds ds', cs = ds ++ ds' → (createDirs fs cur cs).1 (cur.follow ds) = some .dir) ∧
    (∀ ds ds' b, cs = ds ++ ds' → fs (cur.follow ds) = some (.file b) → (createDirs fs cur cs).2 = none) := by
  induction cs generalizing fs cur with
  | nil =>
    refine ⟨ht, fun p _ ds ds' e => ?_, fun ds ds' b e h => ?_⟩ <;> cases List.append_eq_nil_iff.mp e.symm with
    | intro h1 _ => subst h1; first | exact hc | (rw [show cur.follow [] = cur from rfl, hc] at h; cases h)
  | cons c cs ih =>
    have step : ∀ (fs' : FS) (cur' : Path), cur' = cur.step c → createDirs fs cur (c :: cs) = createDirs fs' cur' cs →
        (∀ q x, fs q = some x → fs' q = some x) → fs'.Tree → fs' cur' = some .dir →
        (createDirs fs cur (c :: cs)).1.Tree ∧
        (∀ p, (createDirs fs cur (c :: cs)).2 = some p → ∀ ds ds', c :: cs = ds ++ ds' →
          (createDirs fs cur (c :: cs)).1 (cur.follow ds) = some .dir) ∧
        (∀ ds ds' b, c :: cs = ds ++ ds' → fs (cur.follow ds) = some (.file b) → (createDirs fs cur (c :: cs)).2 = none) := by
      rintro fs' cur' rfl e hfs ht' hc'
      rw [e]
      obtain ⟨i1, i2, i3⟩ := ih ht' hc'
      refine ⟨i1, fun p hp ds ds' he => ?_, fun ds ds' b he hb => ?_⟩
      · cases ds with
        | nil =>
          show (createDirs fs' (cur.step c) cs).1 cur = _
          rcases (createDirs_spec fs' (cur.step c) cs).2.1 cur with h | ⟨h, _⟩
          · rw [h, hfs cur _ hc]
          · rw [hfs cur _ hc] at h; cases h
        | cons d ds =>
          rw [List.cons_append, List.cons.injEq] at he
          obtain ⟨rfl, he⟩ := he
          exact i2 p hp ds ds' he
      · cases ds with
        | nil => rw [show cur.follow [] = cur from rfl, hc] at hb; cases hb
        | cons d ds =>
          rw [List.cons_append, List.cons.injEq] at he
          obtain ⟨rfl, he⟩ := he
          exact i3 ds ds' b he (hfs _ _ hb)
    by_cases h1 : c = [] ∨ c = ['.']
    · exact step fs cur (by unfold Path.step; rw [if_pos h1]) (by rw [createDirs, if_pos h1]) (fun _ _ h => h) ht hc
    by_cases h2 : c = ['.', '.']
    · refine step fs cur.dropLast (by unfold Path.step; rw [if_neg h1, if_pos h2]) (by rw [createDirs, if_neg h1, if_pos h2])
        (fun _ _ h => h) ht ?_
      rcases List.eq_nil_or_concat cur with rfl | ⟨q, x, rfl⟩
      · exact ht.1
      · rw [List.concat_eq_append] at hc ⊢
        rw [List.dropLast_concat]
        exact ht.2 q x (by rw [hc]; simp)
    have hs : cur ++ [c] = cur.step c := by unfold Path.step; rw [if_neg h1, if_neg h2]
    have hd : createDirs fs cur (c :: cs) = match fs (cur ++ [c]) with
      | some .dir => createDirs fs (cur ++ [c]) cs
      | some (.file _) => (fs, none)
      | none => createDirs (fs.set (cur ++ [c]) (some .dir)) (cur ++ [c]) cs := by
      rw [createDirs, if_neg h1, if_neg h2]
      rfl
    cases hn : fs (cur ++ [c]) with
    | none =>
      have keep : ∀ q x, fs q = some x → fs.set (cur ++ [c]) (some .dir) q = some x := by
        intro q x h
        unfold FS.set
        rw [if_neg (by rintro rfl; rw [hn] at h; cases h)]
        exact h
      refine step (fs.set (cur ++ [c]) (some .dir)) _ hs (by rw [hd, hn]) keep ⟨keep _ _ ht.1, fun q x h => ?_⟩ (by simp [FS.set])
      by_cases hq : q ++ [x] = cur ++ [c]
      · rw [(List.append_inj' hq rfl).1]
        exact keep _ _ hc
      · unfold FS.set at h
        rw [if_neg hq] at h
        exact keep _ _ (ht.2 q x h)
    | some x =>
      cases x with
      | dir => exact step fs _ hs (by rw [hd, hn]) (fun _ _ h => h) ht hn
      | file b =>
        rw [hd, hn]
        exact ⟨ht, fun p h => (by cases h), fun _ _ _ _ _ => rfl⟩

/-! ## The claim -/

section

variable {de : List UInt8 → Out StoreSerError Store} {s : Surroundings}

theorem serveFrom_ok {fs : FS} {base p : Path} {dbs : Dbs} :
    serveFrom de s fs base = .ok (p, dbs) ↔ p = base ∧ startWith de fs base = .ok dbs ∧ s.portFree = true := by
  unfold serveFrom
  cases startWith de fs base with
  | ok d =>
    simp only
    split
    · next h => simp only [Out.ok.injEq, Prod.mk.injEq, h, and_true, eq_comm (a := base)]
    · next h => simp [h]
  | err e => simp
  | panic w => simp

theorem launch_text {t : List Char} (hb : s.baseLocation = .text t) (fs : FS) :
    launch de s fs = match createDirs fs (pathBegins s.cwd t) (components t) with
      | (fs, none) => (fs, .err .directory)
      | (fs, some base) => (fs, serveFrom de s fs base) := by
  unfold launch
  rw [hb]
  rfl

/-- **C101**, in part: the daemon serves from the directory that the settings name, and from no other. Missing is a
`BASE_LOCATION` that is not Unicode. -/
theorem C101_directory_partial (hs : s.baseLocation ≠ .garbled) {fs fs' : FS} {p : Path} {dbs : Dbs}
    (h : launch de s fs = (fs', .ok (p, dbs))) : DirectoryIs s p ∧ startWith de fs' p = .ok dbs := by
  cases hb : s.baseLocation with
  | garbled => exact absurd hb hs
  | text t =>
    rw [launch_text hb] at h
    have hsp := (createDirs_spec fs (pathBegins s.cwd t) (components t)).1
    generalize createDirs fs (pathBegins s.cwd t) (components t) = r at h hsp
    obtain ⟨fs1, o⟩ := r
    cases o with
    | none => cases h
    | some base =>
      simp only [Prod.mk.injEq] at h
      obtain ⟨rfl, h⟩ := h
      obtain ⟨rfl, h1, _⟩ := serveFrom_ok.mp h
      exact ⟨.named hb (names_iff.mpr (hsp p rfl)), h1⟩
  | unset =>
    unfold launch at h
    rw [hb] at h
    simp only at h
    cases hl : s.standardLocation with
    | none => rw [hl] at h; cases h
    | some t =>
      rw [hl] at h
      simp only [Prod.mk.injEq] at h
      obtain ⟨rfl, h⟩ := h
      obtain ⟨rfl, h1, _⟩ := serveFrom_ok.mp h
      exact ⟨(standard_iff hb _).mpr ⟨t, hl, rfl⟩, h1⟩

/-- **C101**: the settings name one directory at most, so that the daemon finds its files again whatever happened to the
disk in the meantime. -/
theorem C101_same_directory {p q : Path} (h : DirectoryIs s p) (h' : DirectoryIs s q) : p = q := directory_unique h h'

/-- **C101**: if the paths in the settings are from the root, the working directory does not matter. -/
theorem C101_working_directory (ha : s.Absolute) (cwd : Path) (p : Path) :
    DirectoryIs { s with cwd := cwd } p ↔ DirectoryIs s p := by
  have hn : ∀ {t p} (c c' : Path), t.head? = some '/' → Names c t p → Names c' t p := by
    rintro t p c c' ht ⟨cs, h1, h2⟩
    refine ⟨cs, h1, ?_⟩
    unfold Path.origin at h2 ⊢
    rwa [if_pos ht] at h2 ⊢
  have key : ∀ (s s' : Surroundings), s.Absolute → s' = { s with cwd := s'.cwd } → ∀ p, DirectoryIs s p → DirectoryIs s' p := by
    intro s s' ha e p h
    have e1 : s'.baseLocation = s.baseLocation := by rw [e]
    have e2 : s'.superuser = s.superuser := by rw [e]
    have e3 : s'.xdgDataHome = s.xdgDataHome := by rw [e]
    have e4 : s'.home = s.home := by rw [e]
    have e5 : s'.passwd = s.passwd := by rw [e]
    cases h with
    | named hb hp => exact .named (e1.trans hb) (hn _ _ (ha.1 _ hb) hp)
    | superuser hb hs => exact .superuser (e1.trans hb) (e2.trans hs)
    | user hb hs hp =>
      refine .user (e1.trans hb) (e2.trans hs) ?_
      cases hp with
      | xdg hx hax hp => exact .xdg (e3.trans hx) hax (hn _ _ hax hp)
      | home hx hh hp =>
        refine .home (fun x hx' => hx x (e3 ▸ hx')) ?_ (hn _ _ ?_ hp)
        · exact hh.rec (fun e hne => .fromHome (e4.trans e) hne) (fun e hp => .fromDatabase (e4 ▸ e) (e5.trans hp))
        · cases hh with
          | fromHome e hne => exact (ha.2.1 _ e).resolve_left hne
          | fromDatabase _ e => exact ha.2.2 _ e
  exact ⟨key { s with cwd := cwd } s ha rfl p, key s { s with cwd := cwd } ha rfl p⟩

/-- **C101**: whether it starts or not, pathBegins changes nothing on the disk, except that directories along the path in
`BASE_LOCATION` are created where nothing was. -/
theorem C101_untouched (fs : FS) (q : Path) :
    (launch de s fs).1 q = fs q ∨
    fs q = none ∧ (launch de s fs).1 q = some .dir ∧ ∃ t, s.baseLocation = .text t ∧ Along s.cwd t q := by
  cases hb : s.baseLocation with
  | text t =>
    rw [launch_text hb]
    have hsp := (createDirs_spec fs (pathBegins s.cwd t) (components t)).2.1 q
    generalize createDirs fs (pathBegins s.cwd t) (components t) = r at hsp ⊢
    obtain ⟨fs1, o⟩ := r
    have : (fs1 q = fs q ∨ fs q = none ∧ fs1 q = some .dir ∧ ∃ t', EnvVar.text t = .text t' ∧ Along s.cwd t' q) := by
      rcases hsp with h | ⟨h1, h2, ds, ds', e, rfl⟩
      · exact .inl h
      · exact .inr ⟨h1, h2, t, rfl, ds, ds', e ▸ pieces_components t, rfl⟩
    cases o <;> exact this
  | unset => unfold launch; rw [hb]; simp only; cases s.standardLocation <;> exact .inl rfl
  | garbled => unfold launch; rw [hb]; simp only; cases s.standardLocation <;> exact .inl rfl

/-- **C101**: with `BASE_LOCATION` the directory and all that lead to it are there afterwards; if a file is in their
way, the daemon does not start. -/
theorem C101_created {fs : FS} (ht : fs.Tree) (hw : fs s.cwd = some .dir) {t : List Char} (hb : s.baseLocation = .text t) :
    (∀ fs' p dbs, launch de s fs = (fs', .ok (p, dbs)) → ∀ q, Along s.cwd t q → fs' q = some .dir) ∧
    (∀ q b, Along s.cwd t q → fs q = some (.file b) → (launch de s fs).2 = .err .directory) := by
  have hc : fs (pathBegins s.cwd t) = some .dir := by unfold pathBegins; split; exacts [ht.1, hw]
  have hal : ∀ q, Along s.cwd t q → ∃ ds ds', components t = ds ++ ds' ∧ q = (pathBegins s.cwd t).follow ds := by
    rintro q ⟨ds, ds', h, e⟩
    exact ⟨ds, ds', components_pieces h, e⟩
  obtain ⟨_, h2, h3⟩ := createDirs_tree ht hc (components t)
  rw [launch_text hb]
  generalize createDirs fs (pathBegins s.cwd t) (components t) = r at h2 h3 ⊢
  obtain ⟨fs1, o⟩ := r
  refine ⟨fun fs' p dbs h q hq => ?_, fun q b hq hf => ?_⟩
  · obtain ⟨ds, ds', e, rfl⟩ := hal q hq
    cases o with
    | none => cases h
    | some base =>
      simp only [Prod.mk.injEq] at h
      exact h.1 ▸ h2 base rfl ds ds' e
  · obtain ⟨ds, ds', e, rfl⟩ := hal q hq
    have : o = none := h3 ds ds' b e hf
    subst this
    rfl

/-- **C101**: the daemon starts if nothing is wrong: the directory is known, no file is in its way, its contents can be
read, and the port is free. -/
theorem C101_starts (hp : s.portFree = true) {fs : FS} {p : Path} (hd : DirectoryIs s p)
    (hf : ∀ t q b, s.baseLocation = .text t → Along s.cwd t q → fs q ≠ some (.file b)) :
    ∀ dbs, startWith de (launch de s fs).1 p = .ok dbs → (launch de s fs).2 = .ok (p, dbs) := by
  intro dbs h
  cases hb : s.baseLocation with
  | text t =>
    rw [launch_text hb] at h ⊢
    have hsp := (createDirs_spec fs (pathBegins s.cwd t) (components t)).2.2 fun ds ds' b e =>
      hf t _ b hb ⟨ds, ds', e ▸ pieces_components t, rfl⟩
    generalize createDirs fs (pathBegins s.cwd t) (components t) = r at hsp h ⊢
    obtain ⟨fs1, o⟩ := r
    have hsp : o = some _ := hsp
    subst hsp
    have : p = (pathBegins s.cwd t).follow (components t) := directory_unique hd (.named hb (names_iff.mpr rfl))
    subst this
    exact serveFrom_ok.mpr ⟨rfl, h, hp⟩
  | unset =>
    obtain ⟨t, ht, rfl⟩ := (standard_iff hb p).mp hd
    unfold launch at h ⊢
    rw [hb, ht] at h ⊢
    exact serveFrom_ok.mpr ⟨rfl, h, hp⟩
  | garbled => cases hd with
    | named e => rw [hb] at e; cases e
    | superuser e => rw [hb] at e; cases e
    | user e => rw [hb] at e; cases e

/-- **C101**: if the settings name no directory, it does not start. -/
theorem C101_no_directory (hs : s.baseLocation ≠ .garbled) (hd : ∀ p, ¬ DirectoryIs s p) (fs : FS) :
    launch de s fs = (fs, .err .noDataDirectory) := by
  unfold launch
  cases hb : s.baseLocation with
  | garbled => exact absurd hb hs
  | text t => exact absurd (.named hb (names_iff.mpr rfl)) (hd _)
  | unset =>
    cases hl : s.standardLocation with
    | none => rfl
    | some t => exact absurd ((standard_iff hb _).mpr ⟨t, hl, rfl⟩) (hd _)

/-- **C101**: a second daemon does not get to serve. -/
theorem C101_second (hp : s.portFree = false) (fs : FS) (x : Path × Dbs) : (launch de s fs).2 ≠ .ok x := by
  intro h
  have key : ∀ fs base, serveFrom de s fs base ≠ .ok x := by
    intro fs base h
    have := (serveFrom_ok.mp (show serveFrom de s fs base = .ok (x.1, x.2) from h)).2.2
    rw [hp] at this
    cases this
  unfold launch at h
  split at h
  · split at h
    · cases h
    · exact key _ _ h
  · split at h
    · cases h
    · exact key _ _ h

/-- **C101**, in part: what was saved is found again: after a save without failures into the directory of the daemon, a
daemon with the same settings begins with the same databases and changes nothing on the disk. As in `C45_restart_partial`
the deserialiser is any that reads the stores back. -/
theorem C101_again_partial {env : Env} (hs : s.baseLocation ≠ .garbled) (hf : s.portFree = true) {fs0 fs0' : FS} {p : Path}
    {dbs0 : Dbs} (h0 : launch de s fs0 = (fs0', .ok (p, dbs0))) (dbs : Dbs) (fs fs' : FS) (hn : (dbs.map Prod.fst).Nodup)
    (hp : ∀ x ∈ dbs, PlainName x.1 ∧ x.1 ≠ kMeta) (hb : BaseOk fs p) (hd : ∀ x ∈ dbs, fs (sdbPath p x.1) ≠ some .dir)
    (hde : ∀ x ∈ dbs, ∃ s', de (serBytes env x.2) = .ok s' ∧ s'.Perm x.2)
    (hdm : ∃ s', de (serBytes env (metaStore (dbs.map Prod.fst))) = .ok s' ∧ s'.Perm (metaStore (dbs.map Prod.fst)))
    (hsave : save env p [] .none dbs fs = (fs', true))
    (hal : ∀ t q, s.baseLocation = .text t → Along s.cwd t q → fs' q = some .dir) :
    ∃ dbs', launch de s fs' = (fs', .ok (p, dbs')) ∧ SameDbs dbs dbs' := by
  obtain ⟨dbs', h1, h2⟩ := C45_restart_partial p dbs fs fs' de hn hp hb hd hde hdm hsave
  have hsame : (launch de s fs').1 = fs' := by
    funext q
    rcases C101_untouched (de := de) (s := s) fs' q with h | ⟨h, _, t, ht, hq⟩
    · exact h
    · rw [hal t q ht hq] at h; cases h
  refine ⟨dbs', Prod.ext hsame ?_, h2⟩
  refine C101_starts hf (C101_directory_partial hs h0).1 (fun t q b ht hq h => ?_) dbs' (hsame.symm ▸ h1)
  rw [hal t q ht hq] at h
  cases h

end

/-- An empty disk. -/
def emptyDisk : FS := fun q => if q = [] then some .dir else none

theorem emptyDisk_tree : emptyDisk.Tree := ⟨rfl, fun q c h => absurd (by simp [emptyDisk]) h⟩

/-- **C101** is violated: a `BASE_LOCATION` that is not Unicode is passed over in silence. -/
theorem C101_refuted_garbled (de : List UInt8 → Out StoreSerError Store) : ∃ s : Surroundings, s.baseLocation = .garbled ∧
    launch de s emptyDisk = (emptyDisk, .ok (["etc".toList, "souris".toList], [])) :=
  ⟨⟨.garbled, true, none, none, none, [], true⟩, rfl, by
    have : getStore de emptyDisk ["etc".toList, "souris".toList] kMeta = .ok [] := by rfl
    have h : startWith de emptyDisk ["etc".toList, "souris".toList] = .ok [] := by
      unfold startWith
      rw [this]
      rfl
    refine Prod.ext rfl ?_
    show serveFrom de ⟨.garbled, true, none, none, none, [], true⟩ emptyDisk ["etc".toList, "souris".toList] = _
    exact serveFrom_ok.mpr ⟨rfl, h, rfl⟩⟩

/-- **C101**: a relative `HOME` (or `BASE_LOCATION`) is a different directory in every working directory; a relative
`XDG_DATA_HOME` is passed over, as its specification demands. -/
theorem C101_relative : ∃ s : Surroundings, DirectoryIs s ["w".toList, "h".toList, ".local".toList, "share".toList, "souris".toList] ∧
    DirectoryIs { s with cwd := ["v".toList] } ["v".toList, "h".toList, ".local".toList, "share".toList, "souris".toList] ∧
    s.xdgDataHome = some "x".toList :=
  ⟨⟨.unset, false, some "x".toList, some "h".toList, none, ["w".toList], true⟩,
    .user rfl rfl (.home (p := ["w".toList, "h".toList]) (fun x h => by cases h; decide) (.fromHome rfl (by decide)) (names_iff.mpr rfl)),
    .user rfl rfl (.home (p := ["v".toList, "h".toList]) (fun x h => by cases h; decide) (.fromHome rfl (by decide)) (names_iff.mpr rfl)),
    rfl⟩

/-- The settings of the README, and some others. -/
example : DirectoryIs ⟨.text "/sourisdata/".toList, true, none, none, none, [], true⟩ ["sourisdata".toList] ∧
    DirectoryIs ⟨.text "data/../d".toList, false, none, none, none, ["srv".toList], true⟩ ["srv".toList, "d".toList] ∧
    DirectoryIs ⟨.unset, false, some "/x/y/".toList, none, none, [], true⟩ ["x".toList, "y".toList, "souris".toList] ∧
    DirectoryIs ⟨.unset, false, none, some [], some "/home/u".toList, [], true⟩
      ["home".toList, "u".toList, ".local".toList, "share".toList, "souris".toList] :=
  ⟨.named rfl (names_iff.mpr rfl), .named rfl (names_iff.mpr rfl),
    .user rfl rfl (.xdg (p := ["x".toList, "y".toList]) rfl rfl (names_iff.mpr rfl)),
    .user rfl rfl (.home (p := ["home".toList, "u".toList]) (fun x h => by cases h) (.fromDatabase (.inr rfl) rfl) (names_iff.mpr rfl))⟩

/-- `data/../d` leads through three directories, one of which is created without need. -/
example (de : List UInt8 → Out StoreSerError Store) :
    (launch de ⟨.text "data/../d".toList, false, none, none, none, [], true⟩ emptyDisk).1 ["data".toList] = some .dir ∧
    (launch de ⟨.text "data/../d".toList, false, none, none, none, [], true⟩ emptyDisk).1 ["d".toList] = some .dir := ⟨rfl, rfl⟩

/-- Settings that name no directory. -/
example (p : Path) : ¬ DirectoryIs ⟨.unset, false, none, none, none, [], true⟩ p := by
  intro h
  cases h with
  | named e => cases e
  | superuser _ e => cases e
  | user _ _ h =>
    cases h with
    | xdg e => cases e
    | home _ h =>
      cases h with
      | fromHome e => cases e
      | fromDatabase _ e => cases e

end Souris
