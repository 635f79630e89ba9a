import Verif.Spec.PackageUtils
import Verif.Lemmas.CodeStr
/-!
# C82: source files and modules of packages
-/

namespace Verif.Pkg
open Verif Verif.Str Verif.CodeGen

/-! ## Paths -/

theorem comps_ne (p : Str) : comps p ≠ [] := by
  cases p with
  | nil => simp [comps]
  | cons c cs =>
    unfold comps
    split_ifs
    · simp
    · split <;> simp

theorem comps_append : ∀ (p q : Str), comps (p ++ '/' :: q) = comps p ++ comps q
  | [], q => by simp [comps]
  | c :: p, q => by
    have ih := comps_append p q
    by_cases h : c = '/'
    · rw [List.cons_append, comps, if_pos h, ih, comps, if_pos h]
      rfl
    · rw [List.cons_append, comps, if_neg h, ih, comps, if_neg h]
      have := comps_ne p
      cases hp : comps p with
      | nil => exact absurd hp this
      | cons d ds => rfl

theorem comps_single : ∀ {p : Str}, '/' ∉ p → comps p = [p]
  | [], _ => rfl
  | c :: p, h => by
    have hc : c ≠ '/' := fun e => h (e ▸ List.mem_cons_self)
    rw [comps, if_neg hc, comps_single (fun e => h (List.mem_cons_of_mem _ e))]

theorem IsName.notAbs {d : Str} (h : IsName d) : isAbs d = false := by
  unfold isAbs
  cases d with
  | nil => rfl
  | cons c cs =>
    have : c ≠ '/' := fun e => h.2.1 (e ▸ List.mem_cons_self)
    simpa using this

theorem isAbs_join {p d : Str} (h : IsName d) : isAbs (join2 p d) = isAbs p := by
  unfold join2
  rw [if_neg (by rw [h.notAbs]; simp)]
  cases p with
  | nil => simpa [isAbs] using h.notAbs
  | cons c cs => split_ifs <;> simp [isAbs]

theorem join_ne {p d : Str} (h : IsName d) : join2 p d ≠ [] := by
  unfold join2
  rw [if_neg (by rw [h.notAbs]; simp)]
  split_ifs
  · simp [h.1]
  · simp

/-- The components of a path that is joined with a relative path. -/
theorem comps_join {p q : Str} (h : isAbs q = false) :
    (p = [] ∧ comps (join2 p q) = comps q) ∨ (∃ l, comps p = l ++ [[]] ∧ comps (join2 p q) = l ++ comps q) ∨
      (p ≠ [] ∧ comps (join2 p q) = comps p ++ comps q) := by
  unfold join2
  rw [if_neg (by rw [h]; simp)]
  by_cases hp : p = []
  · left
    subst hp
    simp
  · right
    by_cases hl : p.getLast? = some '/'
    · left
      rw [if_pos (Or.inr hl)]
      obtain ⟨l, rfl⟩ : ∃ l, p = l ++ ['/'] := by
        rw [List.getLast?_eq_some_iff] at hl
        exact hl
      refine ⟨comps l, ?_, ?_⟩
      · rw [show l ++ ['/'] = l ++ '/' :: [] from rfl, comps_append]
        rfl
      · rw [List.append_assoc, List.singleton_append, comps_append]
    · right
      rw [if_neg (by simp [hp, hl]), comps_append]
      exact ⟨hp, rfl⟩

theorem normAbs_append_nil (l m : List Str) : normAbs (l ++ [] :: m) = normAbs (l ++ m) := by
  unfold normAbs
  rw [List.foldl_append, List.foldl_append, List.foldl_cons]
  simp

theorem normAbs_name (l : List Str) {d : Str} (h : IsName d) : normAbs (l ++ [d]) = normAbs l ++ [d] := by
  unfold normAbs
  rw [List.foldl_append, List.foldl_cons, List.foldl_nil, if_neg (by simp [h.1, h.2.2.1]), if_neg h.2.2.2]

theorem absComps_join {cwd p d : Str} (h : IsName d) : absComps cwd (join2 p d) = absComps cwd p ++ [d] := by
  unfold absComps
  rw [isAbs_join h]
  have hd := comps_single h.2.1
  cases ha : isAbs p with
  | true =>
    simp only [if_true]
    rcases comps_join (p := p) h.notAbs with ⟨rfl, -⟩ | ⟨l, h1, h2⟩ | ⟨-, h2⟩
    · simp [isAbs] at ha
    · rw [h2, h1, hd, normAbs_name _ h, normAbs_append_nil, List.append_nil]
    · rw [h2, hd, normAbs_name _ h]
  | false =>
    simp only [Bool.false_eq_true, if_false]
    have key : ∀ q, isAbs q = false → normAbs (comps (join2 cwd q)) = normAbs (comps cwd ++ comps q) := by
      intro q hq
      rcases comps_join (p := cwd) hq with ⟨rfl, h2⟩ | ⟨l, h1, h2⟩ | ⟨-, h2⟩
      · rw [h2]
        exact (normAbs_append_nil [] (comps q)).symm
      · rw [h2, h1, List.append_assoc, List.singleton_append, normAbs_append_nil]
      · rw [h2]
    rw [key _ (by rw [isAbs_join h]; exact ha), key _ ha]
    rcases comps_join (p := p) h.notAbs with ⟨rfl, h2⟩ | ⟨l, h1, h2⟩ | ⟨-, h2⟩
    · rw [h2, hd, normAbs_name _ h, comps, normAbs_append_nil, List.append_nil]
    · rw [h2, h1, hd, ← List.append_assoc, normAbs_name _ h, ← List.append_assoc, normAbs_append_nil, List.append_nil]
    · rw [h2, hd, ← List.append_assoc, normAbs_name _ h]

theorem absComps_joins {cwd : Str} : ∀ {ds : List Str} {p : Str}, (∀ d ∈ ds, IsName d) → absComps cwd (ds.foldl join2 p) = absComps cwd p ++ ds
  | [], p, _ => by simp
  | d :: ds, p, h => by
    rw [List.foldl_cons, absComps_joins (fun e he => h e (List.mem_cons_of_mem _ he)), absComps_join (h d List.mem_cons_self)]
    simp

theorem commonPrefix_append : ∀ (l m : List Str), commonPrefix l (l ++ m) = l.length
  | [], m => by cases m <;> rfl
  | a :: l, m => by
    rw [List.cons_append, commonPrefix, if_pos rfl, commonPrefix_append l m]
    rfl

theorem getLast_name {d : Str} (h : '/' ∉ d) : d.getLast? ≠ some '/' := fun e => h (List.mem_of_getLast? e)

theorem foldl_join_rel : ∀ (cs : List Str) (p : Str), p ≠ [] → p.getLast? ≠ some '/' → (∀ c ∈ cs, IsName c) → cs.foldl join2 p = relText (p :: cs)
  | [], p, _, _, _ => rfl
  | c :: cs, p, hp, hl, h => by
    have hc := h c List.mem_cons_self
    rw [List.foldl_cons]
    have e : join2 p c = p ++ '/' :: c := by
      unfold join2
      rw [if_neg (by rw [hc.notAbs]; simp), if_neg (by simp [hp, hl])]
    rw [e, foldl_join_rel cs _ (by simp) (by
      rw [List.getLast?_append_of_ne_nil _ (by simp), List.getLast?_cons]
      have := getLast_name hc.2.1
      cases hg : c.getLast? with
      | none => simp [hc.1] at hg
      | some x => rw [hg] at this; simpa using this) (fun d hd => h d (List.mem_cons_of_mem _ hd))]
    cases cs <;> simp [relText]

theorem relText_append (c : Str) : ∀ (cs : List Str), relText (c :: cs) = c ++ (cs.map (fun d => '/' :: d)).flatten
  | [] => by simp [relText]
  | d :: cs => by rw [relText, relText_append d cs]; simp

theorem relpath_joins {cwd package : Str} {cs : List Str} (hne : cs ≠ []) (h : ∀ c ∈ cs, IsName c) :
    relpath cwd (cs.foldl join2 package) package = .ok (relText cs) := by
  unfold relpath
  have h0 : cs.foldl join2 package ≠ [] := by
    obtain ⟨init, l, rfl⟩ : ∃ init l, cs = init ++ [l] := by
      rcases List.eq_nil_or_concat cs with rfl | ⟨i, l, rfl⟩
      · exact absurd rfl hne
      · exact ⟨i, l, by simp⟩
    rw [List.foldl_append]
    exact join_ne (h l (by simp))
  rw [if_neg h0]
  simp only
  rw [absComps_joins h, commonPrefix_append]
  cases cs with
  | nil => exact absurd rfl hne
  | cons c cs =>
    have hc := h c List.mem_cons_self
    simp only [Nat.sub_self, List.replicate_zero, List.nil_append, List.drop_left]
    rw [foldl_join_rel cs c hc.1 (getLast_name hc.2.1) (fun d hd => h d (List.mem_cons_of_mem _ hd))]

theorem parts_join {p d : Str} (h : IsName d) : parts (join2 p d) = parts p ++ [d] := by
  unfold parts
  rw [isAbs_join h]
  have hd := comps_single h.2.1
  have hf : decide (d ≠ [] ∧ d ≠ ['.']) = true := by simp [h.1, h.2.2.1]
  rcases comps_join (p := p) h.notAbs with ⟨rfl, h2⟩ | ⟨l, h1, h2⟩ | ⟨-, h2⟩
  · rw [h2, hd]
    simp [comps, isAbs, h.1, h.2.2.1]
  · rw [h2, h1, hd]
    simp [h.1, h.2.2.1]
  · rw [h2, hd]
    simp [h.1, h.2.2.1]

theorem parts_joins : ∀ {ds : List Str} {p : Str}, (∀ d ∈ ds, IsName d) → parts (ds.foldl join2 p) = parts p ++ ds
  | [], p, _ => by simp
  | d :: ds, p, h => by
    rw [List.foldl_cons, parts_joins (fun e he => h e (List.mem_cons_of_mem _ he)), parts_join (h d List.mem_cons_self)]
    simp

theorem parentParts_join {p d : Str} (h : IsName d) : parentParts (join2 p d) = parts p := by
  unfold parentParts
  rw [parts_join h, isAbs_join h]
  have : ¬ (isAbs p = true ∧ (parts p ++ [d]).length = 1) := by
    rintro ⟨ha, hl⟩
    unfold parts at hl
    rw [if_pos ha] at hl
    simp at hl
  rw [if_neg this]
  simp

/-! ## Names of files -/

theorem extension_iff {f : Str} : extension f = ".py".toList ↔ IsSource f := by
  unfold extension IsSource
  simp only
  constructor
  · intro h
    split_ifs at h with hc
    · obtain ⟨hd, hb⟩ := hc
      refine ⟨_, (by rw [← h]; exact (List.take_append_drop _ _).symm), ?_⟩
      obtain ⟨c, hc, hne⟩ := List.any_eq_true.1 hb
      exact ⟨c, hc, by simpa using hne⟩
    · simp at h
  · rintro ⟨base, rfl, c, hc, hne⟩
    have e : ((base ++ ".py".toList).reverse.takeWhile (· ≠ '.')).length + 1 = 3 := by
      simp
    rw [e]
    have hl : (base ++ ".py".toList).length - 3 = base.length := by simp
    rw [hl, List.take_left, List.drop_left, if_pos]
    refine ⟨by simp, List.any_eq_true.2 ⟨c, hc, by simpa using hne⟩⟩

theorem hidden_iff {s : Str} : (s.head? != some '.') = true ↔ ¬ IsHidden s := by
  unfold IsHidden
  cases s with
  | nil => simp
  | cons c cs => simp

theorem private_iff {s : Str} : (s.head? != some '_' || s.take 2 == ['_', '_']) = true ↔ ¬ IsPrivate s := by
  unfold IsPrivate
  cases s with
  | nil => simp
  | cons c cs =>
    cases cs with
    | nil => simp
    | cons d ds =>
      by_cases h : c = '_'
      · subst h
        simp
      · simp [h]

theorem selectFile_iff {o : Options} {f : Str} : selectFile o f = true ↔
    IsSource f ∧ (o.includeHiddenFiles = true ∨ ¬ IsHidden f) ∧ (o.includePrivateFiles = true ∨ ¬ IsPrivate f) := by
  unfold selectFile
  rw [Bool.and_eq_true, Bool.and_eq_true, Bool.or_eq_true, Bool.or_eq_true, hidden_iff, private_iff, beq_iff_eq, extension_iff]
  tauto

theorem suffix_path {t a f : Str} (ht : '/' ∉ t) : t <:+ a ++ '/' :: f ↔ t <:+ f := by
  constructor
  · intro h
    rcases le_total t.length f.length with hl | hl
    · exact List.suffix_of_suffix_length_le h ⟨a ++ ['/'], by simp⟩ hl
    · by_cases he : t.length = f.length
      · exact List.suffix_of_suffix_length_le h ⟨a ++ ['/'], by simp⟩ he.le
      · have : '/' :: f <:+ t := List.suffix_of_suffix_length_le ⟨a, rfl⟩ h (by simp; omega)
        exact absurd (this.subset List.mem_cons_self) ht
  · rintro ⟨b, rfl⟩
    exact ⟨a ++ '/' :: b, by simp⟩

theorem suffix_join {t p f : Str} (ht : '/' ∉ t) (h : IsName f) : t.isSuffixOf (join2 p f) = t.isSuffixOf f := by
  rw [Bool.eq_iff_iff, List.isSuffixOf_iff_suffix, List.isSuffixOf_iff_suffix]
  unfold join2
  rw [if_neg (by rw [h.notAbs]; simp)]
  by_cases hp : p = []
  · subst hp
    simp
  · by_cases hl : p.getLast? = some '/'
    · rw [if_pos (Or.inr hl)]
      obtain ⟨l, rfl⟩ := List.getLast?_eq_some_iff.1 hl
      rw [List.append_assoc, List.singleton_append]
      exact suffix_path ht
    · rw [if_neg (by simp [hp, hl])]
      exact suffix_path ht

theorem pyGet_neg_one {α : Type} (l : List α) : pyGet l (-1) = match l.getLast? with
    | some x => .ok x
    | none => .error .index := by
  rcases List.eq_nil_or_concat l with rfl | ⟨i, x, rfl⟩
  · rfl
  · unfold pyGet
    rw [if_neg (by omega), if_pos (by simp)]
    have : (-1 + ((i.concat x).length : ℤ)).toNat = i.length := by simp
    rw [this]
    simp

/-- `_is_test_file` of a file in a directory. -/
theorem isTestFile_join {p f : Str} (h : IsName f) : isTestFile (join2 p f) =
    if "_test.py".toList.isSuffixOf f ∨ "_test_interactive.py".toList.isSuffixOf f then
      (match (parts p).getLast? with
        | some l => .ok (decide (l = "test".toList))
        | none => .error .index)
    else .ok false := by
  unfold isTestFile
  simp only []
  rw [parentParts_join h, suffix_join (by decide) h, suffix_join (by decide) h, pyGet_neg_one]
  cases h1 : "_test.py".toList.isSuffixOf f <;> cases h2 : "_test_interactive.py".toList.isSuffixOf f <;> cases h3 : (parts p).getLast? <;> simp [Py.bind_ok, Py.bind_error, Py.pure_eq]
  all_goals (split_ifs <;> simp_all)

/-! ## The loops -/

open Classical in
theorem leaveOut_eq {o : Options} {package f : Str} {ds : List Str} (hf : IsName f) (hds : ∀ d ∈ ds, IsName d)
    (hne : o.excludeTestFiles = true → TestName f → parts package ++ ds ≠ []) :
    leaveOut o (join2 (ds.foldl join2 package) f) = .ok (decide (o.excludeTestFiles = true ∧ IsTest package ds f)) := by
  unfold leaveOut
  cases ho : o.excludeTestFiles with
  | false => simp
  | true =>
    rw [if_pos rfl, isTestFile_join hf, parts_joins hds]
    by_cases ht : TestName f
    · have ht' := ht
      unfold TestName at ht'
      rw [if_pos (by simpa only [List.isSuffixOf_iff_suffix] using ht')]
      cases hl : (parts package ++ ds).getLast? with
      | none => exact absurd (List.getLast?_eq_none_iff.1 hl) (hne ho ht)
      | some l =>
        simp only [IsTest, hl, Option.some.injEq, true_and, ht]
    · have ht' := ht
      unfold TestName at ht'
      rw [if_neg (by simpa only [List.isSuffixOf_iff_suffix] using ht')]
      simp [IsTest, ht]

/-- The path that is yielded for a file. -/
def pathOf (o : Options) (package : Str) (cs : List Str) : Str := if o.absolutePath then cs.foldl join2 package else relText cs

open Classical in
/-- The files of a directory that are yielded. -/
noncomputable def kept (o : Options) (package : Str) (a : List Str × Str) : Bool :=
  selectFile o a.2 && !(decide (o.excludeTestFiles = true ∧ IsTest package a.1 a.2))

theorem fileLoop_eq {o : Options} {cwd package : Str} {ds : List Str} (hds : ∀ d ∈ ds, IsName d) : ∀ {fs : List Str}, (∀ f ∈ fs, IsName f) →
    (∀ f ∈ fs, o.excludeTestFiles = true → selectFile o f = true → TestName f → parts package ++ ds ≠ []) →
    fileLoop o cwd package (ds.foldl join2 package) fs =
      .ok (((fs.map (fun f => (ds, f))).filter (kept o package)).map (fun a => pathOf o package (a.1 ++ [a.2])))
  | [], _, _ => rfl
  | f :: fs, hfs, hne => by
    have ih := fileLoop_eq (cwd := cwd) hds (fun g hg => hfs g (List.mem_cons_of_mem _ hg)) (fun g hg => hne g (List.mem_cons_of_mem _ hg))
    have hf := hfs f List.mem_cons_self
    unfold fileLoop
    cases hs : selectFile o f with
    | false =>
      rw [if_neg (by simp), ih]
      simp [kept, hs]
    | true =>
      rw [if_pos rfl]
      simp only
      rw [leaveOut_eq hf hds (fun h1 h2 => hne f List.mem_cons_self h1 hs h2), Py.bind_ok]
      have hy : yieldPath o cwd package (join2 (ds.foldl join2 package) f) = .ok (pathOf o package (ds ++ [f])) := by
        unfold yieldPath pathOf
        have e : join2 (ds.foldl join2 package) f = (ds ++ [f]).foldl join2 package := by simp
        rw [e]
        split_ifs
        · rfl
        · exact relpath_joins (by simp) (by
            intro c hc
            rcases List.mem_append.1 hc with hc | hc
            · exact hds c hc
            · rw [List.mem_singleton.1 hc]
              exact hf)
      by_cases hk : o.excludeTestFiles = true ∧ IsTest package ds f
      · rw [if_pos (by simpa using hk), ih]
        simp [kept, hs, hk]
      · rw [if_neg (by simpa using hk), hy, ih, Py.bind_ok, Py.bind_ok]
        have : kept o package (ds, f) = true := by simp [kept, hs]; simpa using hk
        rw [List.map_cons, List.filter_cons_of_pos this]
        rfl

/-- The files in the subdirectories of a directory. -/
def below : Entries → List (List Str × Str)
  | .nil => []
  | .file _ rest => below rest
  | .dir d sub rest => (sub.files.map (fun f => ([d], f)) ++ (below sub).map (fun a => (d :: a.1, a.2))) ++ below rest

/-- All files of a directory and its subdirectories. -/
def allFiles (e : Entries) : List (List Str × Str) := e.files.map (fun f => ([], f)) ++ below e

/-- No hidden directories, unless they are asked for. -/
def visible (o : Options) (a : List Str × Str) : Bool := o.includeHiddenFiles || a.1.all (fun d => d.head? != some '.')

theorem mem_files {e : Entries} {f : Str} : f ∈ e.files ↔ HasFile e [] f := by
  constructor
  · intro h
    induction e with
    | nil => simp [Entries.files] at h
    | file g rest ih =>
      rcases List.mem_cons.1 h with rfl | h
      · exact .here _ _
      · exact .skipFile _ (ih h)
    | dir d sub rest _ ih => exact .skipDir _ _ (ih h)
  · generalize hds : ([] : List Str) = ds
    intro h
    induction h with
    | here f rest => simp [Entries.files]
    | inDir => simp at hds
    | skipFile g _ ih => exact List.mem_cons_of_mem _ (ih hds)
    | skipDir d sub _ ih => exact ih hds

theorem mem_below {e : Entries} {ds : List Str} {f : Str} : (ds, f) ∈ below e ↔ HasFile e ds f ∧ ds ≠ [] := by
  constructor
  · intro h
    induction e generalizing ds f with
    | nil => simp [below] at h
    | file g rest ih => exact ⟨.skipFile _ (ih h).1, (ih h).2⟩
    | dir d sub rest ih1 ih2 =>
      unfold below at h
      rcases List.mem_append.1 h with h | h
      · rcases List.mem_append.1 h with h | h
        · obtain ⟨g, hg, e⟩ := List.mem_map.1 h
          obtain ⟨rfl, rfl⟩ := Prod.mk.inj e
          exact ⟨.inDir d rest (mem_files.1 hg), by simp⟩
        · obtain ⟨g, hg, e⟩ := List.mem_map.1 h
          obtain ⟨rfl, rfl⟩ := Prod.mk.inj e
          exact ⟨.inDir d rest (ih1 hg).1, by simp⟩
      · exact ⟨.skipDir _ _ (ih2 h).1, (ih2 h).2⟩
  · rintro ⟨h, hne⟩
    induction h with
    | here f rest => exact absurd rfl hne
    | @inDir d sub rest ds f h ih =>
      refine List.mem_append_left _ ?_
      by_cases hd : ds = []
      · subst hd
        exact List.mem_append_left _ (List.mem_map.2 ⟨f, mem_files.2 h, rfl⟩)
      · exact List.mem_append_right _ (List.mem_map.2 ⟨_, ih hd, rfl⟩)
    | skipFile g _ ih => exact ih hne
    | skipDir d sub _ ih => exact List.mem_append_right _ (ih hne)

theorem mem_allFiles {e : Entries} {ds : List Str} {f : Str} : (ds, f) ∈ allFiles e ↔ HasFile e ds f := by
  unfold allFiles
  rw [List.mem_append, mem_below]
  constructor
  · rintro (h | h)
    · obtain ⟨g, hg, e⟩ := List.mem_map.1 h
      obtain ⟨rfl, rfl⟩ := Prod.mk.inj e
      exact mem_files.1 hg
    · exact h.1
  · intro h
    by_cases hd : ds = []
    · subst hd
      exact Or.inl (List.mem_map.2 ⟨f, mem_files.2 h, rfl⟩)
    · exact Or.inr ⟨h, hd⟩

theorem HasFile.proper {e : Entries} {ds : List Str} {f : Str} (h : HasFile e ds f) (he : e.Proper) : (∀ d ∈ ds, IsName d) ∧ IsName f := by
  induction h with
  | here f rest => exact ⟨by simp, he.1⟩
  | inDir d rest _ ih =>
    obtain ⟨h1, h2⟩ := ih he.2.1
    refine ⟨fun c hc => ?_, h2⟩
    rcases List.mem_cons.1 hc with rfl | hc
    · exact he.1
    · exact h1 c hc
  | skipFile g _ ih => exact ih he.2
  | skipDir d sub _ ih => exact ih he.2.2

theorem dirLoop_eq {o : Options} {cwd package : Str} {e : Entries} : ∀ {ds : List Str}, (∀ d ∈ ds, IsName d) → e.Proper →
    dirLoop o cwd package (ds.foldl join2 package) e =
      .ok ((((below e).map (fun a => (ds ++ a.1, a.2))).filter (fun a => (o.includeHiddenFiles || (a.1.drop ds.length).all (fun d => d.head? != some '.')) && kept o package a)).map
        (fun a => pathOf o package (a.1 ++ [a.2]))) := by
  induction e with
  | nil => intro ds _ _; rfl
  | file g rest ih => intro ds hds he; exact ih hds he.2
  | dir d sub rest ih1 ih2 =>
    intro ds hds he
    obtain ⟨hd, hsub, hrest⟩ := he
    have hds' : ∀ c ∈ ds ++ [d], IsName c := by
      intro c hc
      rcases List.mem_append.1 hc with hc | hc
      · exact hds c hc
      · rw [List.mem_singleton.1 hc]
        exact hd
    have e : join2 (ds.foldl join2 package) d = (ds ++ [d]).foldl join2 package := by simp
    have hf : ∀ f ∈ sub.files, IsName f := fun f hf => ((mem_files.1 hf).proper hsub).2
    unfold dirLoop
    rw [e, ih2 hds hrest, ih1 hds' hsub, fileLoop_eq hds' hf (by simp)]
    by_cases hh : (o.includeHiddenFiles || d.head? != some '.') = true
    · rw [if_pos hh]
      simp only [Py.bind_ok, Py.pure_eq, below, List.map_append, List.filter_append, List.map_map]
      congr 2
      congr 1
      · simp only [List.filter_map, List.map_map]
        have : (fun a : List Str × Str => (o.includeHiddenFiles || (a.1.drop ds.length).all (fun d => d.head? != some '.')) && kept o package a) ∘
            (fun a : List Str × Str => (ds ++ a.1, a.2)) ∘ (fun f => ([d], f)) = kept o package ∘ (fun f => (ds ++ [d], f)) := by
          funext f
          simp only [Function.comp, List.drop_left, List.all_cons, List.all_nil, Bool.and_true]
          rw [hh, Bool.true_and]
        rw [this]
        rfl
      · simp only [List.filter_map, List.map_map]
        have : (fun a : List Str × Str => (o.includeHiddenFiles || (a.1.drop ds.length).all (fun d => d.head? != some '.')) && kept o package a) ∘
            (fun a : List Str × Str => (ds ++ a.1, a.2)) ∘ (fun a : List Str × Str => (d :: a.1, a.2)) =
            (fun a : List Str × Str => (o.includeHiddenFiles || (a.1.drop (ds ++ [d]).length).all (fun d => d.head? != some '.')) && kept o package a) ∘
            (fun a : List Str × Str => (ds ++ [d] ++ a.1, a.2)) := by
          funext a
          simp only [Function.comp, List.drop_left, List.all_cons]
          have e' : ds ++ d :: a.1 = ds ++ [d] ++ a.1 := by simp
          rw [e', Bool.or_and_distrib_left, hh, Bool.true_and]
        rw [this]
        refine List.map_congr_left fun a _ => ?_
        simp [Function.comp]
    · rw [if_neg hh]
      have key : ∀ l : List (List Str × Str), ((l.map (fun a => (ds ++ d :: a.1, a.2))).filter
          (fun a => (o.includeHiddenFiles || (a.1.drop ds.length).all (fun d => d.head? != some '.')) && kept o package a)) = [] := by
        intro l
        rw [List.filter_eq_nil_iff]
        intro a ha
        obtain ⟨b, -, rfl⟩ := List.mem_map.1 ha
        simp only [List.drop_left, List.all_cons]
        rw [Bool.or_and_distrib_left, Bool.eq_false_iff.2 hh]
        simp
      simp only [below, List.map_append, List.filter_append, List.map_map]
      have k1 := key (sub.files.map (fun f => ([], f)))
      have k2 := key (below sub)
      rw [List.map_map] at k1
      have k2' : (fun a : List Str × Str => (ds ++ a.1, a.2)) ∘ (fun a : List Str × Str => (d :: a.1, a.2)) = fun a => (ds ++ d :: a.1, a.2) := rfl
      have k1' : (fun a : List Str × Str => (ds ++ a.1, a.2)) ∘ (fun f => ([d], f)) = (fun a : List Str × Str => (ds ++ d :: a.1, a.2)) ∘ (fun f => ([], f)) := rfl
      rw [k1', k1, k2', k2]
      simp

theorem sourceFilePaths_eq {o : Options} {cwd package : Str} {e : Entries} (he : e.Proper)
    (hne : o.excludeTestFiles = true → parts package = [] → ∀ f, HasFile e [] f → selectFile o f = true → ¬ TestName f) :
    sourceFilePaths o cwd package e =
      .ok (((allFiles e).filter (fun a => visible o a && kept o package a)).map (fun a => pathOf o package (a.1 ++ [a.2]))) := by
  unfold sourceFilePaths
  have h1 := fileLoop_eq (o := o) (cwd := cwd) (package := package) (ds := []) (by simp) (fs := e.files) (fun f hf => ((mem_files.1 hf).proper he).2)
    (fun f hf h1 h2 h3 h4 => hne h1 (by simpa using h4) f (mem_files.1 hf) h2 h3)
  have h2 := dirLoop_eq (o := o) (cwd := cwd) (package := package) (ds := []) (by simp) he
  simp only [List.foldl_nil] at h1 h2
  rw [h1, h2]
  simp only [Py.bind_ok, Py.pure_eq, allFiles, List.map_append, List.filter_append, List.nil_append, List.length_nil, List.drop_zero]
  congr 3
  · refine List.filter_congr fun a ha => ?_
    obtain ⟨f, -, rfl⟩ := List.mem_map.1 ha
    simp [visible]
  · simp only [Prod.mk.eta, List.map_id']
    rfl

/-! ## Different files have different paths -/

theorem joins_injective {package : Str} {cs cs' : List Str} (h : ∀ c ∈ cs, IsName c) (h' : ∀ c ∈ cs', IsName c)
    (e : cs.foldl join2 package = cs'.foldl join2 package) : cs = cs' := by
  have := congrArg (absComps []) e
  rw [absComps_joins h, absComps_joins h'] at this
  exact List.append_cancel_left this

theorem comps_relText : ∀ {cs : List Str}, cs ≠ [] → (∀ c ∈ cs, IsName c) → comps (relText cs) = cs
  | [], h, _ => absurd rfl h
  | [c], _, h => comps_single (h c List.mem_cons_self).2.1
  | c :: d :: cs, _, h => by
    rw [relText, comps_append, comps_relText (by simp) (fun e he => h e (List.mem_cons_of_mem _ he)), comps_single (h c List.mem_cons_self).2.1]
    rfl

theorem pathOf_injective {o : Options} {package : Str} {cs cs' : List Str} (hn : cs ≠ []) (hn' : cs' ≠ []) (h : ∀ c ∈ cs, IsName c)
    (h' : ∀ c ∈ cs', IsName c) (e : pathOf o package cs = pathOf o package cs') : cs = cs' := by
  unfold pathOf at e
  split_ifs at e
  · exact joins_injective h h' e
  · have := congrArg comps e
    rwa [comps_relText hn h, comps_relText hn' h'] at this

theorem files_names {e : Entries} {f : Str} (h : f ∈ e.files) : f ∈ e.names := by
  induction e with
  | nil => simp [Entries.files] at h
  | file g rest ih =>
    rcases List.mem_cons.1 h with rfl | h
    · exact List.mem_cons_self
    · exact List.mem_cons_of_mem _ (ih h)
  | dir d sub rest _ ih => exact List.mem_cons_of_mem _ (ih h)

theorem below_names {e : Entries} {d f : Str} {ds : List Str} (h : (d :: ds, f) ∈ below e) : d ∈ e.names := by
  have := (mem_below.1 h).1
  generalize hl : d :: ds = l at this
  induction this with
  | here => simp at hl
  | inDir c rest _ _ =>
    obtain ⟨rfl, -⟩ := List.cons.inj hl
    exact List.mem_cons_self
  | skipFile g h2 ih => exact List.mem_cons_of_mem _ (ih (mem_below.2 ⟨hl ▸ h2, by simp⟩) hl)
  | skipDir c sub h2 ih => exact List.mem_cons_of_mem _ (ih (mem_below.2 ⟨hl ▸ h2, by simp⟩) hl)

theorem files_nodup {e : Entries} (h : e.Distinct) : e.files.Nodup := by
  induction e with
  | nil => simp [Entries.files]
  | file g rest ih => exact List.nodup_cons.2 ⟨fun hg => h.1 (files_names hg), ih h.2⟩
  | dir d sub rest _ ih => exact ih h.2.2

theorem below_nodup {e : Entries} (h : e.Distinct) : (below e).Nodup := by
  induction e with
  | nil => simp [below]
  | file g rest ih => exact ih h.2
  | dir d sub rest ih1 ih2 =>
    unfold below
    refine List.Nodup.append (List.Nodup.append ?_ ?_ ?_) (ih2 h.2.2) ?_
    · exact (files_nodup h.2.1).map (fun a b e => (Prod.mk.inj e).2)
    · exact (ih1 h.2.1).map (fun a b e => by
        obtain ⟨e1, e2⟩ := Prod.mk.inj e
        exact Prod.ext (List.cons.inj e1).2 e2)
    · intro a ha hb
      obtain ⟨f, -, rfl⟩ := List.mem_map.1 ha
      obtain ⟨⟨ds, g⟩, hb, e⟩ := List.mem_map.1 hb
      obtain ⟨e1, e2⟩ := Prod.mk.inj e
      exact (mem_below.1 hb).2 (List.cons.inj e1).2
    · intro a ha hb
      obtain ⟨ds, f, rfl⟩ : ∃ ds f, a = (d :: ds, f) := by
        rcases List.mem_append.1 ha with ha | ha
        · obtain ⟨f, -, rfl⟩ := List.mem_map.1 ha
          exact ⟨[], f, rfl⟩
        · obtain ⟨b, -, rfl⟩ := List.mem_map.1 ha
          exact ⟨b.1, b.2, rfl⟩
      exact h.1 (below_names hb)

theorem allFiles_nodup {e : Entries} (h : e.Distinct) : (allFiles e).Nodup := by
  refine List.Nodup.append ((files_nodup h).map (fun a b e => (Prod.mk.inj e).2)) (below_nodup h) ?_
  intro a ha hb
  obtain ⟨f, -, rfl⟩ := List.mem_map.1 ha
  exact (mem_below.1 hb).2 rfl

end Verif.Pkg

namespace Verif.Props
open Verif Verif.Str Verif.CodeGen Verif.Pkg

theorem kept_iff {o : Options} {package : Str} {ds : List Str} {f : Str} : (visible o (ds, f) && kept o package (ds, f)) = true ↔
    Wanted o ds f ∧ ¬ (o.excludeTestFiles = true ∧ IsTest package ds f) := by
  unfold visible kept Wanted
  rw [Bool.and_eq_true, Bool.and_eq_true, selectFile_iff, Bool.or_eq_true, List.all_eq_true]
  have h : (∀ d ∈ ds, (d.head? != some '.') = true) ↔ ∀ d ∈ ds, ¬ IsHidden d := forall₂_congr fun d _ => hidden_iff
  rw [h, Bool.not_eq_true', decide_eq_false_iff_not]
  tauto

/-- **C82** `source_file_paths` yields exactly the paths of the Python source files of the directory tree: hidden files and files in hidden directories, and private
files, only if they are asked for, and no test files if they are to be left out. Paths are joined with the path of the package or relative to it; the current
directory and the form of the path of the package do not matter. -/
theorem C82_source_files {o : Options} {cwd package : Str} {e : Entries} (he : e.Proper)
    (hne : o.excludeTestFiles = true → parts package = [] → ∀ f, HasFile e [] f → Wanted o [] f → ¬ TestName f) :
    ∃ l, sourceFilePaths o cwd package e = .ok l ∧
      ∀ path, path ∈ l ↔ ∃ ds f, HasFile e ds f ∧ Wanted o ds f ∧ ¬ (o.excludeTestFiles = true ∧ IsTest package ds f) ∧
        path = if o.absolutePath then (ds ++ [f]).foldl join2 package else relText (ds ++ [f]) := by
  refine ⟨_, sourceFilePaths_eq he (fun h1 h2 f h3 h4 => hne h1 h2 f h3 ?_), fun path => ?_⟩
  · obtain ⟨a, b, c⟩ := selectFile_iff.1 h4
    exact ⟨a, by simpa using b, c⟩
  · rw [List.mem_map]
    constructor
    · rintro ⟨⟨ds, f⟩, ha, rfl⟩
      obtain ⟨h1, h2⟩ := List.mem_filter.1 ha
      obtain ⟨h3, h4⟩ := kept_iff.1 h2
      exact ⟨ds, f, mem_allFiles.1 h1, h3, h4, rfl⟩
    · rintro ⟨ds, f, h1, h2, h3, rfl⟩
      exact ⟨(ds, f), List.mem_filter.2 ⟨mem_allFiles.2 h1, kept_iff.2 ⟨h2, h3⟩⟩, rfl⟩

/-- **C82** No path is yielded twice, and different files have different paths. -/
theorem C82_source_files_distinct {o : Options} {cwd package : Str} {e : Entries} (he : e.Proper) (hd : e.Distinct) {l : List Str}
    (h : sourceFilePaths o cwd package e = .ok l)
    (hne : o.excludeTestFiles = true → parts package = [] → ∀ f, HasFile e [] f → Wanted o [] f → ¬ TestName f) : l.Nodup := by
  rw [sourceFilePaths_eq he (fun h1 h2 f h3 h4 => hne h1 h2 f h3 (by
    obtain ⟨a, b, c⟩ := selectFile_iff.1 h4
    exact ⟨a, by simpa using b, c⟩))] at h
  obtain rfl := Except.ok.inj h
  refine List.Nodup.map_on ?_ ((allFiles_nodup hd).filter _)
  rintro ⟨ds, f⟩ h1 ⟨ds', f'⟩ h2 e
  obtain ⟨p1, p2⟩ := (mem_allFiles.1 (List.mem_filter.1 h1).1).proper he
  obtain ⟨q1, q2⟩ := (mem_allFiles.1 (List.mem_filter.1 h2).1).proper he
  have := pathOf_injective (by simp) (by simp) (by
    intro c hc
    rcases List.mem_append.1 hc with hc | hc
    · exact p1 c hc
    · rw [List.mem_singleton.1 hc]; exact p2) (by
    intro c hc
    rcases List.mem_append.1 hc with hc | hc
    · exact q1 c hc
    · rw [List.mem_singleton.1 hc]; exact q2) e
  obtain ⟨e1, e2⟩ := List.append_inj' this rfl
  exact Prod.ext e1 (List.cons.inj e2).1

/-- **C82** (finding) If test files are to be left out and the path of the package has no components (`.`), a test file in the package directory itself raises
IndexError. -/
theorem C82_source_files_error {o : Options} {cwd package : Str} {e : Entries} (he : e.Proper) (ho : o.excludeTestFiles = true) (hp : parts package = [])
    {f : Str} (hf : HasFile e [] f) (hw : Wanted o [] f) (ht : TestName f) : sourceFilePaths o cwd package e = .error .index := by
  have key : ∀ fs : List Str, (∀ g ∈ fs, IsName g) → f ∈ fs → fileLoop o cwd package package fs = .error .index := by
    intro fs
    induction fs with
    | nil => simp
    | cons g fs ih =>
      intro hn hm
      have hg := hn g List.mem_cons_self
      have hn' : ∀ c ∈ fs, IsName c := fun c hc => hn c (List.mem_cons_of_mem _ hc)
      unfold fileLoop
      cases hs : selectFile o g with
      | false =>
        rw [if_neg (by simp)]
        rcases List.mem_cons.1 hm with rfl | hm
        · have : selectFile o f = true := selectFile_iff.2 ⟨hw.1, by simpa using hw.2.1, hw.2.2⟩
          rw [this] at hs
          cases hs
        · exact ih hn' hm
      | true =>
        rw [if_pos rfl]
        simp only [leaveOut, ho, if_true]
        rw [isTestFile_join hg, hp]
        by_cases hgt : TestName g
        · have hgt' := hgt
          unfold TestName at hgt'
          rw [if_pos (by simpa only [List.isSuffixOf_iff_suffix] using hgt')]
          rfl
        · have hgt' := hgt
          unfold TestName at hgt'
          rw [if_neg (by simpa only [List.isSuffixOf_iff_suffix] using hgt')]
          have hm' : f ∈ fs := by
            rcases List.mem_cons.1 hm with rfl | hm
            · exact absurd ht hgt
            · exact hm
          simp only [Py.bind_ok, Bool.false_eq_true, if_false]
          have hy : yieldPath o cwd package (join2 package g) = .ok (pathOf o package [g]) := by
            unfold yieldPath pathOf
            split_ifs
            · rfl
            · exact relpath_joins (cs := [g]) (by simp) (by simpa using hg)
          rw [ih hn' hm', hy]
          rfl
  unfold sourceFilePaths
  rw [key e.files (fun g hg => ((mem_files.1 hg).proper he).2) (mem_files.2 hf)]
  rfl

/-! ## Modules -/

theorem replace_char (a b : Char) : ∀ s : Str, strReplace s [a] [b] = s.map (fun c => if c = a then b else c)
  | [] => rfl
  | c :: s => by
    have ih := replace_char a b s
    unfold strReplace at ih ⊢
    rw [replaceGo]
    by_cases h : c = a
    · subst h
      simp [List.isPrefixOf, ih]
    · have : ([a].isPrefixOf (c :: s)) = false := by
        simp [List.isPrefixOf, Ne.symm h]
      rw [this]
      simp [h, ih]

theorem dotted_eq (c : Str) : ∀ (cs : List Str), dotted (c :: cs) = c ++ (cs.map (fun d => '.' :: d)).flatten
  | [] => by simp [dotted]
  | d :: cs => by rw [dotted, dotted_eq d cs]; simp

theorem map_notMem {a b : Char} {s : Str} (h : a ∉ s) : s.map (fun c => if c = a then b else c) = s := by
  conv_rhs => rw [← List.map_id s]
  refine List.map_congr_left fun c hc => ?_
  have : c ≠ a := fun e => h (e ▸ hc)
  rw [if_neg this]
  rfl

/-- Replacing the separators of a dotted name gives the relative path. -/
theorem dotted_to_path {cs : List Str} (h : ∀ c ∈ cs, '.' ∉ c) : strReplace (dotted cs) ['.'] ['/'] = relText cs := by
  rw [replace_char]
  cases cs with
  | nil => rfl
  | cons c cs =>
    rw [dotted_eq, relText_append, List.map_append, map_notMem (h c List.mem_cons_self), List.map_flatten, List.map_map]
    congr 2
    refine List.map_congr_left fun d hd => ?_
    simp only [Function.comp, List.map_cons, if_true]
    rw [map_notMem (h d (List.mem_cons_of_mem _ hd))]

/-- And back again. -/
theorem path_to_dotted {cs : List Str} (h : ∀ c ∈ cs, '/' ∉ c) : strReplace (relText cs) ['/'] ['.'] = dotted cs := by
  rw [replace_char]
  cases cs with
  | nil => rfl
  | cons c cs =>
    rw [dotted_eq, relText_append, List.map_append, map_notMem (h c List.mem_cons_self), List.map_flatten, List.map_map]
    congr 2
    refine List.map_congr_left fun d hd => ?_
    simp only [Function.comp, List.map_cons, if_true]
    rw [map_notMem (h d (List.mem_cons_of_mem _ hd))]

/-- What `submodules` makes of the name of a module. -/
def mangled : List Str → Str
  | [] => []
  | c :: cs => c ++ (cs.map (fun d => if ['p', 'y'] <+: d then d.drop 2 else '.' :: d)).flatten

/-- The part of a text without dots is not changed by removing `.py`. -/
theorem remove_free : ∀ (t rest : Str), '.' ∉ t → replaceGo ['.', 'p', 'y'] [] 0 (t ++ rest) = t ++ replaceGo ['.', 'p', 'y'] [] 0 rest
  | [], _, _ => rfl
  | c :: t, rest, h => by
    have hc : c ≠ '.' := fun e => h (e ▸ List.mem_cons_self)
    rw [List.cons_append, replaceGo, remove_free t rest (fun e => h (List.mem_cons_of_mem _ e))]
    have : (['.', 'p', 'y'].isPrefixOf (c :: (t ++ rest))) = false := by
      simp [List.isPrefixOf, Ne.symm hc]
    rw [this]
    rfl

theorem remove_py : ∀ (cs : List Str), (∀ c ∈ cs, '.' ∉ c) → replaceGo ['.', 'p', 'y'] [] 0 ((cs.map (fun d => '.' :: d)).flatten ++ ".py".toList) =
    (cs.map (fun d => if ['p', 'y'] <+: d then d.drop 2 else '.' :: d)).flatten
  | [], _ => by decide
  | c :: cs, h => by
    have ih := remove_py cs (fun d hd => h d (List.mem_cons_of_mem _ hd))
    have hc := h c List.mem_cons_self
    set rest := (cs.map (fun d => '.' :: d)).flatten ++ ".py".toList with hr
    have hrest : ∃ r, rest = '.' :: r := by
      cases cs with
      | nil => exact ⟨_, rfl⟩
      | cons d ds => exact ⟨_, rfl⟩
    obtain ⟨r, hr'⟩ := hrest
    have e : ((c :: cs).map (fun d => '.' :: d)).flatten ++ ".py".toList = '.' :: (c ++ rest) := by simp [hr]
    rw [e]
    by_cases hp : ['p', 'y'] <+: c
    · obtain ⟨d, rfl⟩ := hp
      have : '.' :: (['p', 'y'] ++ d ++ rest) = ['.', 'p', 'y'] ++ (d ++ rest) := by simp
      rw [this, PyExpr.replaceGo_hit _ _ (by simp), remove_free d rest (fun e => hc (by simp [e])), ih]
      simp
    · have hnp : (['.', 'p', 'y'].isPrefixOf ('.' :: (c ++ rest))) = false := by
        rw [Bool.eq_false_iff]
        intro hh
        rw [List.isPrefixOf_iff_prefix] at hh
        obtain ⟨t, ht⟩ := hh
        simp only [List.cons_append, List.nil_append, List.cons.injEq, true_and] at ht
        rw [hr'] at ht
        match c, ht with
        | [], ht => simp at ht
        | [a], ht => simp at ht
        | a :: b :: c', ht =>
          simp at ht
          exact hp ⟨c', by rw [← ht.1, ← ht.2.1]; rfl⟩
      rw [replaceGo, hnp]
      simp only [Bool.false_eq_true, if_false, List.map_cons, List.flatten_cons, if_neg hp]
      rw [remove_free c rest hc, ih]
      simp

theorem moduleName_names {cs : List Str} (h : IsModuleName cs) : ∀ c ∈ cs, IsName c := by
  intro c hc
  obtain ⟨h1, h2, h3⟩ := h.2 c hc
  exact ⟨h1, h3, fun e => h2 (by rw [e]; simp), fun e => h2 (by rw [e]; simp)⟩

theorem relText_ext {cs : List Str} {t : Str} : ∀ {c : Str}, relText (c :: cs) ++ t = relText ((c :: cs).dropLast ++ [(c :: cs).getLast (by simp) ++ t]) := by
  induction cs with
  | nil => intro c; simp [relText]
  | cons d ds ih =>
    intro c
    rw [relText, List.append_assoc, List.cons_append, ih]
    simp only [List.dropLast_cons_cons, List.getLast_cons_cons, List.cons_append]
    cases h : (d :: ds).dropLast with
    | nil => simp [relText]
    | cons a as => simp [relText]

theorem dotted_ext {cs : List Str} {t : Str} : ∀ {c : Str}, dotted (c :: cs) ++ t = dotted ((c :: cs).dropLast ++ [(c :: cs).getLast (by simp) ++ t]) := by
  induction cs with
  | nil => intro c; simp [dotted]
  | cons d ds ih =>
    intro c
    rw [dotted, List.append_assoc, List.cons_append, ih]
    simp only [List.dropLast_cons_cons, List.getLast_cons_cons, List.cons_append]
    cases h : (d :: ds).dropLast with
    | nil => simp [dotted]
    | cons a as => simp [dotted]

theorem join_relText : ∀ {cs : List Str} {p : Str}, cs ≠ [] → (∀ c ∈ cs, IsName c) → join2 p (relText cs) = cs.foldl join2 p
  | [], _, h, _ => absurd rfl h
  | [c], p, _, _ => rfl
  | c :: d :: cs, p, _, h => by
    have hc := h c List.mem_cons_self
    have ih := join_relText (cs := d :: cs) (p := join2 p c) (by simp) (fun e he => h e (List.mem_cons_of_mem _ he))
    rw [List.foldl_cons, ← ih, relText]
    have hd := h d (by simp)
    have ha : isAbs (relText (d :: cs)) = false := by
      rw [relText_append]
      have := hd.notAbs
      have hne := hd.1
      unfold isAbs at this ⊢
      cases d with
      | nil => exact absurd rfl hne
      | cons x xs => simpa using this
    have hca : isAbs (c ++ '/' :: relText (d :: cs)) = false := by
      have := hc.notAbs
      have hne := hc.1
      unfold isAbs at this ⊢
      cases c with
      | nil => exact absurd rfl hne
      | cons x xs => simpa using this
    have hl : (join2 p c).getLast? ≠ some '/' := by
      unfold join2
      rw [if_neg (by rw [hc.notAbs]; simp)]
      have := getLast_name hc.2.1
      cases hg : c.getLast? with
      | none => simp [hc.1] at hg
      | some x =>
        rw [hg] at this
        split_ifs
        · rw [List.getLast?_append_of_ne_nil _ hc.1, hg]
          exact this
        · rw [List.getLast?_append_of_ne_nil _ (by simp), List.getLast?_cons, hg]
          simpa using this
    conv_rhs => rw [join2, if_neg (by rw [ha]; simp), if_neg (by simp [join_ne hc, hl])]
    unfold join2
    rw [if_neg (by rw [hca]; simp)]
    simp only [hc.notAbs, Bool.false_eq_true, if_false]
    split_ifs <;> simp

/-- The file of a module: the last component with the ending `.py`. -/
def moduleFile (cs : List Str) : List Str := cs.dropLast ++ [cs.getLastD [] ++ ".py".toList]

theorem moduleFile_text {cs : List Str} (h : cs ≠ []) : relText cs ++ ".py".toList = relText (moduleFile cs) := by
  cases cs with
  | nil => exact absurd rfl h
  | cons c cs =>
    rw [relText_ext, moduleFile, List.getLastD_eq_getLast?, List.getLast?_eq_some_getLast (by simp)]
    rfl

theorem moduleFile_names {cs : List Str} (h : IsModuleName cs) : ∀ c ∈ moduleFile cs, IsName c := by
  intro c hc
  rcases List.mem_append.1 hc with hc | hc
  · exact moduleName_names h c (List.dropLast_subset _ hc)
  · rw [List.mem_singleton.1 hc, List.getLastD_eq_getLast?, List.getLast?_eq_some_getLast h.1]
    obtain ⟨h1, h2, h3⟩ := h.2 _ (List.getLast_mem h.1)
    refine ⟨by simp, by simpa using h3, ?_, ?_⟩
    · intro e
      have := congrArg List.length e
      simp at this
    · intro e
      have := congrArg List.length e
      simp at this

theorem paths_eq {cwd package : Str} (absolute : Bool) {cs : List Str} (hne : cs ≠ []) (h : ∀ c ∈ cs, IsName c) :
    (if absolute then .ok (join2 package (relText cs)) else relpath cwd (join2 package (relText cs)) package : Py Str) =
      .ok (if absolute then cs.foldl join2 package else relText cs) := by
  rw [join_relText hne h]
  cases absolute with
  | true => rfl
  | false => exact relpath_joins hne h

theorem mapM_ok {α β : Type} {f : α → Py β} {g : α → β} : ∀ {l : List α}, (∀ a ∈ l, f a = .ok (g a)) → l.mapM f = .ok (l.map g)
  | [], _ => rfl
  | a :: l, h => by
    rw [List.mapM_cons, h a List.mem_cons_self, Py.bind_ok, mapM_ok (fun b hb => h b (List.mem_cons_of_mem _ hb))]
    rfl

/-- **C82** `submodule_paths` yields the path of the file of each module: the directories and the file name `<module>.py`, joined with the path of the package or
relative to it. -/
theorem C82_submodule_paths {cwd package : Str} (absolute : Bool) {w : List (List Str × Bool)} (h : ∀ a ∈ w, IsModuleName a.1) :
    submodulePaths cwd package absolute (w.map fun a => (dotted a.1, a.2)) =
      .ok ((w.filter (fun a => !a.2)).map fun a => if absolute then (moduleFile a.1).foldl join2 package else relText (moduleFile a.1)) := by
  unfold submodulePaths
  rw [List.filter_map, List.mapM_map]
  refine mapM_ok fun a ha => ?_
  have hm := h a (List.mem_filter.1 ha).1
  simp only [Function.comp]
  rw [dotted_to_path (fun c hc => (hm.2 c hc).2.1), moduleFile_text hm.1]
  exact paths_eq absolute (by simp [moduleFile]) (moduleFile_names hm)

/-- **C82** `subpackage_paths` yields the path of the directory of each package. -/
theorem C82_subpackage_paths {cwd package : Str} (absolute : Bool) {w : List (List Str × Bool)} (h : ∀ a ∈ w, IsModuleName a.1) :
    subpackagePaths cwd package absolute (w.map fun a => (dotted a.1, a.2)) =
      .ok ((w.filter (fun a => a.2)).map fun a => if absolute then a.1.foldl join2 package else relText a.1) := by
  unfold subpackagePaths
  rw [List.filter_map, List.mapM_map]
  refine mapM_ok fun a ha => ?_
  have hm := h a (List.mem_filter.1 ha).1
  simp only [Function.comp]
  rw [dotted_to_path (fun c hc => (hm.2 c hc).2.1)]
  exact paths_eq absolute hm.1 (moduleName_names hm)

theorem submodules_eq {cwd package : Str} {w : List (List Str × Bool)} (h : ∀ a ∈ w, IsModuleName a.1) :
    submodules cwd package (w.map fun a => (dotted a.1, a.2)) = .ok ((w.filter (fun a => !a.2)).map fun a => mangled a.1) := by
  unfold submodules
  rw [C82_submodule_paths false h, Py.bind_ok, Py.pure_eq, List.map_map]
  congr 1
  refine List.map_congr_left fun a ha => ?_
  have hm := h a (List.mem_filter.1 ha).1
  simp only [Function.comp, Bool.false_eq_true, if_false]
  rw [path_to_dotted (fun c hc => (moduleFile_names hm c hc).2.1)]
  obtain ⟨hne, hc⟩ := hm
  obtain ⟨cs, b⟩ := a
  simp only at hne hc ⊢
  cases cs with
  | nil => exact absurd rfl hne
  | cons c cs =>
    have e : dotted (moduleFile (c :: cs)) = c ++ ((cs.map (fun d => '.' :: d)).flatten ++ ".py".toList) := by
      rw [← List.append_assoc, ← dotted_eq, dotted_ext, moduleFile, List.getLastD_eq_getLast?, List.getLast?_eq_some_getLast (by simp)]
      rfl
    rw [e]
    unfold strReplace mangled
    rw [show ".py".toList = ['.', 'p', 'y'] from rfl, remove_free _ _ (hc c List.mem_cons_self).2.1]
    congr 1
    exact remove_py cs (fun d hd => (hc d (List.mem_cons_of_mem _ hd)).2.1)

theorem mangled_iff {c : Str} {cs : List Str} : mangled (c :: cs) = dotted (c :: cs) ↔ ∀ d ∈ cs, ¬ "py".toList <+: d := by
  rw [dotted_eq, mangled, List.append_cancel_left_eq]
  constructor
  · intro h
    have key : ∀ l : List Str, ((l.map (fun d => if ['p', 'y'] <+: d then d.drop 2 else '.' :: d)).flatten).length ≤ ((l.map (fun d => '.' :: d)).flatten).length ∧
        (((l.map (fun d => if ['p', 'y'] <+: d then d.drop 2 else '.' :: d)).flatten).length = ((l.map (fun d => '.' :: d)).flatten).length →
          ∀ d ∈ l, ¬ ['p', 'y'] <+: d) := by
      intro l
      induction l with
      | nil => simp
      | cons d l ih =>
        obtain ⟨h1, h2⟩ := ih
        simp only [List.map_cons, List.flatten_cons, List.length_append, List.length_cons]
        by_cases hp : ['p', 'y'] <+: d
        · rw [if_pos hp]
          simp only [List.length_drop]
          exact ⟨by omega, fun e => by omega⟩
        · rw [if_neg hp]
          simp only [List.length_cons]
          refine ⟨by omega, fun e => ?_⟩
          intro x hx
          rcases List.mem_cons.1 hx with rfl | hx
          · exact hp
          · exact h2 (by omega) x hx
    exact (key cs).2 (congrArg List.length h)
  · intro h
    congr 1
    refine List.map_congr_left fun d hd => ?_
    exact if_neg (h d hd)

/-- **C82** `submodules` yields the dotted names of the modules, if no component after the first one begins with `py`. -/
theorem C82_submodules {cwd package : Str} {w : List (List Str × Bool)} (h : ∀ a ∈ w, IsModuleName a.1)
    (hpy : ∀ a ∈ w, a.2 = false → ∀ d ∈ a.1.tail, ¬ "py".toList <+: d) :
    submodules cwd package (w.map fun a => (dotted a.1, a.2)) = .ok ((w.filter (fun a => !a.2)).map fun a => dotted a.1) := by
  rw [submodules_eq h]
  congr 1
  refine List.map_congr_left fun a ha => ?_
  obtain ⟨h1, h2⟩ := List.mem_filter.1 ha
  obtain ⟨cs, b⟩ := a
  cases cs with
  | nil => exact absurd rfl (h _ h1).1
  | cons c cs => exact mangled_iff.2 (hpy _ h1 (by simpa using h2))

/-- **C82** (finding) `submodules` yields a wrong name for each module that has a component after the first one that begins with `py`. -/
theorem C82_submodules_wrong {cwd package : Str} {cs : List Str} (h : IsModuleName cs) {d : Str} (hd : d ∈ cs.tail) (hpy : "py".toList <+: d) :
    ∃ s, submodules cwd package [(dotted cs, false)] = .ok [s] ∧ s ≠ dotted cs := by
  have := submodules_eq (cwd := cwd) (package := package) (w := [(cs, false)]) (by simpa using h)
  refine ⟨mangled cs, this, ?_⟩
  cases cs with
  | nil => exact absurd rfl h.1
  | cons c cs => exact fun e => mangled_iff.1 e d hd hpy

/-! ## Examples -/

/-- A package with a private module, a test directory and a hidden directory. -/
private def tree : Entries :=
  .file "__init__.py".toList (.file "_private.py".toList (.file "notes.txt".toList
    (.dir "test".toList (.file "a_test.py".toList (.file "helper.py".toList .nil))
      (.dir ".git".toList (.file "hook.py".toList .nil) (.file "a.py".toList .nil)))))

private def opts : Options := ⟨false, true, false, false⟩

example : tree.Proper := by simp [tree, Entries.Proper, IsName]

example : tree.Distinct := by simp [tree, Entries.Distinct, Entries.names]

example : parts "/home/pkg".toList ≠ [] := by simp [parts, isAbs]

example : sourceFilePaths opts "/".toList "/home/pkg".toList tree =
    .ok ["__init__.py".toList, "a.py".toList, "test/helper.py".toList] := by decide +kernel

example : sourceFilePaths ⟨true, false, true, true⟩ "/".toList "/home/pkg".toList tree =
    .ok ["/home/pkg/__init__.py".toList, "/home/pkg/_private.py".toList, "/home/pkg/a.py".toList, "/home/pkg/test/a_test.py".toList,
      "/home/pkg/test/helper.py".toList, "/home/pkg/.git/hook.py".toList] := by decide +kernel

/-- The current directory is called `test`, and the package path is `.`: the loop ends with IndexError. -/
example : parts ".".toList = [] := by decide +kernel

example : sourceFilePaths opts "/home/test".toList ".".toList (.file "a_test.py".toList .nil) = .error .index := by decide +kernel

example : IsModuleName ["pkg".toList, "pyutils".toList] := by simp [IsModuleName]

example : submodules "/".toList "/home".toList [("pkg.pyutils".toList, false)] = .ok ["pkgutils".toList] := by decide +kernel

example : submodules "/".toList "/home".toList [("pkg".toList, true), ("pkg.utils".toList, false)] = .ok ["pkg.utils".toList] := by
  decide +kernel

example : subpackagePaths "/".toList "/home".toList true [("pkg.sub".toList, true), ("pkg.utils".toList, false)] =
    .ok ["/home/pkg/sub".toList] := by decide +kernel

end Verif.Props
