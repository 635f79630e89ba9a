import Verif.Model.DocsNames
import Mathlib.Tactic.Linarith
/-!
# C108: names in the generated documentation
-/

namespace Verif.DocsNames

/-! ## Lemmas -/

theorem firstLine (line rest : Str) (h : '\n' ∉ line) : (line ++ '\n' :: rest).findIdx? (fun c => c == '\n') = some line.length := by
  induction line with
  | nil => simp [List.findIdx?_cons]
  | cons c line ih =>
    have hc : c ≠ '\n' := fun h' => h (by simp [h'])
    have := ih fun h' => h (by simp [h'])
    simp [List.findIdx?_cons, hc, this]

theorem findSub_name (k p t : Str) (hp : ' ' ∉ p) : findSub (' ' :: k) (p ++ (' ' :: k ++ t)) = some p.length := by
  induction p with
  | nil => simp [findSub]
  | cons c p ih =>
    have hc : ' ' ≠ c := fun h' => hp (List.mem_cons.2 (.inl h'))
    have := ih fun h' => hp (by simp [h'])
    rw [List.cons_append, findSub, if_neg (by simp [hc]), this]
    rfl

theorem findSub_none {key s : Str} (h : ¬ key <:+: s) : findSub key s = none := by
  induction s with
  | nil =>
    rw [findSub, if_neg]
    rintro rfl
    exact h (List.infix_refl _)
  | cons c s ih =>
    rw [findSub, if_neg, ih fun h' => h (h'.trans (List.suffix_cons c s).isInfix)]
    · rfl
    · intro h'
      exact h (List.isPrefixOf_iff_prefix.1 h').isInfix

theorem findSub_drop {key : Str} (d : Nat) : ∀ {s : Str} {m : Nat}, findSub key s = some m → d ≤ m → findSub key (s.drop d) = some (m - d) := by
  induction d with
  | zero => intro s m h _; simpa using h
  | succ d ih =>
    intro s m h hd
    cases s with
    | nil =>
      rw [findSub] at h
      split at h
      · have := Option.some.inj h; omega
      · cases h
    | cons c s =>
      rw [findSub] at h
      split at h
      · have := Option.some.inj h; omega
      · obtain ⟨m', h1, h2⟩ := Option.map_eq_some_iff.1 h
        rw [List.drop_succ_cons, ih h1 (by omega)]
        congr 1
        omega

theorem afterLastDot_append (pre name : Str) (hn : '.' ∉ name) (hp : pre = [] ∨ ∃ q, pre = q ++ ['.']) : afterLastDot (pre ++ name) = pre.length := by
  have ht : ∀ t : Str, (t = [] ∨ ∃ q, t = '.' :: q) → (name.reverse ++ t).takeWhile (fun c => c != '.') = name.reverse := by
    intro t ht
    rw [List.takeWhile_append_of_pos]
    · rcases ht with rfl | ⟨q, rfl⟩ <;> simp
    · intro c hc
      have : c ≠ '.' := fun h => hn (by rw [← h]; simpa using hc)
      simpa using this
  unfold afterLastDot
  rw [List.reverse_append, ht]
  · simp
  · rcases hp with rfl | ⟨q, rfl⟩
    · exact .inl rfl
    · exact .inr ⟨q.reverse, by simp⟩

theorem afterLastDot_le (s : Str) : afterLastDot s ≤ s.length := Nat.sub_le _ _

theorem no_dot_after (s : Str) : '.' ∉ s.drop (afterLastDot s) := by
  have h : s.drop (afterLastDot s) = (s.reverse.takeWhile (fun c => c != '.')).reverse := by
    have h1 : s = (s.reverse.dropWhile (fun c => c != '.')).reverse ++ (s.reverse.takeWhile (fun c => c != '.')).reverse := by
      rw [← List.reverse_append, List.takeWhile_append_dropWhile, List.reverse_reverse]
    have h2 : afterLastDot s = (s.reverse.dropWhile (fun c => c != '.')).reverse.length := by
      unfold afterLastDot
      have := congrArg List.length h1
      simp only [List.length_append, List.length_reverse] at this ⊢
      omega
    conv_lhs => rw [h2]; arg 2; rw [h1]
    rw [List.drop_left]
  rw [h]
  intro h'
  have := List.all_eq_true.1 (List.all_takeWhile (p := fun c => c != '.') (l := s.reverse)) _ (List.mem_reverse.1 h')
  simp at this

theorem afterLastDot_zero {s : Str} (h : '.' ∉ s) : afterLastDot s = 0 := by
  simpa using afterLastDot_append [] s h (.inl rfl)

theorem split_line (s : Str) : '\n' ∉ s ∨ ∃ line rest, '\n' ∉ line ∧ s = line ++ '\n' :: rest := by
  induction s with
  | nil => simp
  | cons c s ih =>
    by_cases hc : c = '\n'
    · exact .inr ⟨[], s, by simp, by simp [hc]⟩
    · rcases ih with h | ⟨line, rest, h1, rfl⟩
      · exact .inl (by simp [h, Ne.symm hc])
      · exact .inr ⟨c :: line, rest, by simp [h1, Ne.symm hc], rfl⟩

theorem findSub_le {key s : Str} {m : Nat} (h : findSub key s = some m) : m ≤ s.length := by
  induction s generalizing m with
  | nil =>
    rw [findSub] at h
    split at h
    · have := Option.some.inj h; omega
    · cases h
  | cons c s ih =>
    rw [findSub] at h
    split at h
    · have := Option.some.inj h; omega
    · obtain ⟨m', h1, h2⟩ := Option.map_eq_some_iff.1 h
      have := ih h1
      simp only [List.length_cons]
      omega

theorem shorten_line (key line rest : Str) (h : '\n' ∉ line) : shorten key (line ++ '\n' :: rest) =
    match findSub key line with
    | none => line ++ '\n' :: rest
    | some m => line.drop (afterLastDot (line.take m)) ++ '\n' :: rest := by
  unfold shorten
  rw [firstLine line rest h]
  simp only [List.take_left]
  cases hf : findSub key line with
  | none => rfl
  | some m =>
    have hm := findSub_le hf
    have h1 : (line ++ '\n' :: rest).take m = line.take m := List.take_append_of_le_length hm
    have h2 := afterLastDot_le (line.take m)
    rw [List.length_take] at h2
    simp only [h1]
    rw [List.drop_append_of_le_length (by omega)]

theorem shorten_no_newline (key s : Str) (h : '\n' ∉ s) : shorten key s = s := by
  unfold shorten
  have : s.findIdx? (fun c => c == '\n') = none := by
    rw [List.findIdx?_eq_none_iff]
    intro c hc
    have : c ≠ '\n' := fun h' => h (h' ▸ hc)
    simpa using this
  rw [this]

/-! ## Properties -/

/-- **C108** If the first line of a file is a dotted name followed by a key (" module" or " package") and any text, everything up to the last dot of the name is removed, and
nothing else is changed. `pre` is the part of the name to be removed: empty, or a text that ends with a dot. -/
theorem C108_name (pre name k tail rest : Str) (hs : ' ' ∉ pre ++ name) (hn : '\n' ∉ pre ++ name ++ (' ' :: k ++ tail)) (hd : '.' ∉ name)
    (hp : pre = [] ∨ ∃ q, pre = q ++ ['.']) :
    shorten (' ' :: k) (pre ++ name ++ (' ' :: k ++ tail) ++ '\n' :: rest) = name ++ (' ' :: k ++ tail) ++ '\n' :: rest := by
  rw [shorten_line _ _ _ hn, findSub_name k _ tail hs]
  simp only [List.take_left, afterLastDot_append pre name hd hp]
  rw [List.append_assoc, List.drop_left]

/-- **C108** Both functions, as the script calls them: 'a.b.c.xxx module' on the first line becomes 'xxx module', and 'a.b.c.xxx package' becomes 'xxx package'. -/
theorem C108_both (pre name rest : Str) (hs : ' ' ∉ pre ++ name) (hn : '\n' ∉ pre ++ name) (hd : '.' ∉ name) (hp : pre = [] ∨ ∃ q, pre = q ++ ['.']) :
    shortenBoth (pre ++ name ++ " module".toList ++ '\n' :: rest) = name ++ " module".toList ++ '\n' :: rest ∧
    shortenBoth (pre ++ name ++ " package".toList ++ '\n' :: rest) = name ++ " package".toList ++ '\n' :: rest := by
  have hm : " module".toList = ' ' :: "module".toList := by decide
  have hk : " package".toList = ' ' :: "package".toList := by decide
  have hs' : ' ' ∉ name := fun h => hs (List.mem_append_right _ h)
  have hn' : '\n' ∉ name := fun h => hn (List.mem_append_right _ h)
  have nl : ∀ {p k : Str}, '\n' ∉ p → '\n' ∉ k → '\n' ∉ p ++ k := fun h1 h2 h => (List.mem_append.1 h).elim h1 h2
  have other : ∀ (a b p r : Str), ' ' ∉ p → '\n' ∉ p → '\n' ∉ b → ' ' ∉ b → ¬ a <+: b → a ≠ [] →
      shorten (' ' :: a) (p ++ (' ' :: b) ++ '\n' :: r) = p ++ (' ' :: b) ++ '\n' :: r := by
    intro a b p r h1 h2 h3 h4 h5 h6
    have hline : '\n' ∉ p ++ (' ' :: b) := nl h2 (by simp [h3])
    rw [shorten_line _ _ _ hline, findSub_none]
    rintro ⟨u, v, huv⟩
    have hu : u = p := by
      have huv' : u ++ ' ' :: (a ++ v) = p ++ ' ' :: b := by simpa using huv
      rcases List.append_eq_append_iff.1 huv' with ⟨w, hw1, hw2⟩ | ⟨w, hw1, hw2⟩
      · cases w with
        | nil => simpa using hw1.symm
        | cons x w =>
          have : x = ' ' := (List.cons.inj hw2).1.symm
          exact absurd (by rw [hw1]; simp [this]) h1
      · cases w with
        | nil => simpa using hw1
        | cons x w =>
          have : b = w ++ ' ' :: (a ++ v) := (List.cons.inj hw2).2
          exact absurd (by rw [this]; simp) h4
    subst hu
    have : a ++ v = b := by simpa using huv
    exact h5 ⟨v, this⟩
  unfold shortenBoth
  have m1 := C108_name pre name "module".toList [] rest hs (by rw [List.append_nil]; exact nl hn (by decide)) hd hp
  have m2 := C108_name pre name "package".toList [] rest hs (by rw [List.append_nil]; exact nl hn (by decide)) hd hp
  rw [List.append_nil] at m1 m2
  rw [hm, hk]
  constructor
  · rw [m1]
    exact other _ _ _ _ hs' hn' (by decide) (by decide) (by decide) (by decide)
  · rw [other _ _ _ _ hs hn (by decide) (by decide) (by decide) (by decide), m2]

/-- **C108** Files whose first line does not contain the key, or that have no line break, stay as they are. -/
theorem C108_unchanged (key line rest : Str) (hn : '\n' ∉ line) (hk : ¬ key <:+: line) :
    shorten key (line ++ '\n' :: rest) = line ++ '\n' :: rest ∧ shorten key line = line := by
  rw [shorten_line _ _ _ hn, findSub_none hk]
  exact ⟨rfl, shorten_no_newline key line hn⟩

/-- **C108** In every case only text at the beginning of the first line is removed. -/
theorem C108_suffix (key content : Str) :
    shorten key content = content ∨ ∃ a b rest, '\n' ∉ a ++ b ∧ content = a ++ b ++ '\n' :: rest ∧ shorten key content = b ++ '\n' :: rest := by
  rcases split_line content with h | ⟨line, rest, h, rfl⟩
  · exact .inl (shorten_no_newline key content h)
  · rw [shorten_line _ _ _ h]
    cases findSub key line with
    | none => exact .inl rfl
    | some m => exact .inr ⟨line.take (afterLastDot (line.take m)), _, rest, by rwa [List.take_append_drop], by rw [List.take_append_drop], rfl⟩

/-- **C108** Running the script again changes nothing. -/
theorem C108_idempotent (key content : Str) : shorten key (shorten key content) = shorten key content := by
  rcases split_line content with h | ⟨line, rest, h, rfl⟩
  · rw [shorten_no_newline key content h, shorten_no_newline key content h]
  · rw [shorten_line _ _ _ h]
    cases hf : findSub key line with
    | none => simp only [shorten_line _ _ _ h, hf]
    | some m =>
      have hm := findSub_le hf
      have h2 := afterLastDot_le (line.take m)
      rw [List.length_take] at h2
      simp only
      rw [shorten_line _ _ _ fun h' => h (List.mem_of_mem_drop h'), findSub_drop _ hf (by omega)]
      simp only
      have h3 : (line.drop (afterLastDot (line.take m))).take (m - afterLastDot (line.take m)) = (line.take m).drop (afterLastDot (line.take m)) := by
        rw [List.drop_take]
      rw [h3, afterLastDot_zero (no_dot_after _), List.drop_zero]

theorem shortenFile_other {files files' : Files} {cwd name : Str} (h : shortenFile files cwd name = .ok files') {d n : Str} (hne : d ≠ cwd ∨ n ≠ name) :
    files' d n = files d n := by
  unfold shortenFile at h
  split at h
  · cases h
  · rw [← Except.ok.inj h]
    rcases hne with hd | hn
    · rw [Function.update_of_ne hd]
    · by_cases hd : d = cwd
      · subst hd
        rw [Function.update_self, Function.update_of_ne hn]
      · rw [Function.update_of_ne hd]

/-- **C108** The script run in the directory it is applied to: it ends successfully; every `.rst` file of the directory is shortened, and no other file is touched. -/
theorem C108_directory (files : Files) (dir : Str) (listing : List Str) (hl : listing.Nodup) (hf : ∀ n ∈ listing, (files dir n).isSome) :
    ∃ files', shortenAll files dir listing = .ok files' ∧
      (∀ n ∈ listing, ".rst".toList <:+ n → files' dir n = (files dir n).map shortenBoth) ∧
      ∀ d n, (d ≠ dir ∨ n ∉ listing ∨ ¬ ".rst".toList <:+ n) → files' d n = files d n := by
  unfold shortenAll
  induction listing generalizing files with
  | nil => exact ⟨files, rfl, by simp, fun _ _ _ => rfl⟩
  | cons a l ih =>
    obtain ⟨ha, hl'⟩ := List.nodup_cons.1 hl
    rw [List.foldlM_cons]
    by_cases hr : ".rst".toList <:+ a
    · rw [if_pos (List.isSuffixOf_iff_suffix.2 hr)]
      obtain ⟨c, hc⟩ := Option.isSome_iff_exists.1 (hf a (by simp))
      have h1 : shortenFile files dir a = .ok (Function.update files dir (Function.update (files dir) a (some (shortenBoth c)))) := by
        unfold shortenFile
        rw [hc]
      obtain ⟨files', g1, g2, g3⟩ := ih (Function.update files dir (Function.update (files dir) a (some (shortenBoth c)))) hl' (fun n hn => by
        rw [shortenFile_other h1 (.inr fun h => ha (h ▸ hn))]
        exact hf n (by simp [hn]))
      refine ⟨files', ?_, ?_, ?_⟩
      · rw [h1]
        exact g1
      · intro n hn hr'
        rcases List.mem_cons.1 hn with rfl | hn
        · rw [g3 dir n (.inr (.inl ha)), hc]
          simp
        · rw [g2 n hn hr', shortenFile_other h1 (.inr fun h => ha (h ▸ hn))]
      · intro d n h
        have h' : d ≠ dir ∨ n ∉ l ∨ ¬ ".rst".toList <:+ n := by
          rcases h with h | h | h
          · exact .inl h
          · exact .inr (.inl fun h' => h (by simp [h']))
          · exact .inr (.inr h)
        rw [g3 d n h']
        refine shortenFile_other h1 ?_
        rcases h with h | h | h
        · exact .inl h
        · exact .inr fun h' => h (by simp [h'])
        · exact .inr fun h' => h (h' ▸ hr)
    · rw [if_neg (fun h => hr (List.isSuffixOf_iff_suffix.1 h))]
      obtain ⟨files', g1, g2, g3⟩ := ih files hl' fun n hn => hf n (by simp [hn])
      refine ⟨files', g1, fun n hn hr' => ?_, fun d n h => ?_⟩
      · rcases List.mem_cons.1 hn with rfl | hn
        · exact absurd hr' hr
        · exact g2 n hn hr'
      · by_cases hd : d = dir
        · by_cases hn : n ∈ l
          · refine g3 d n (.inr (.inr ?_))
            rcases h with h | h | h
            · exact absurd hd h
            · exact absurd (List.mem_cons_of_mem _ hn) h
            · exact h
          · exact g3 d n (.inr (.inl hn))
        · exact g3 d n (.inl hd)

/-- **C108** Run in another directory, the script never changes the files of the directory it is applied to. It fails if the first `.rst` file does not exist in the
current directory. -/
theorem C108_other_directory (files : Files) (cwd dir : Str) (hne : dir ≠ cwd) (listing : List Str) :
    (∀ files', shortenAll files cwd listing = .ok files' → ∀ n, files' dir n = files dir n) ∧
    ∀ n rest, listing = n :: rest → ".rst".toList <:+ n → files cwd n = none → shortenAll files cwd listing = .error .fileNotFound := by
  constructor
  · unfold shortenAll
    induction listing generalizing files with
    | nil => intro files' h n; rw [← Except.ok.inj h]
    | cons a l ih =>
      intro files' h n
      rw [List.foldlM_cons] at h
      by_cases hr : ".rst".toList.isSuffixOf a = true
      · rw [if_pos hr] at h
        cases h1 : shortenFile files cwd a with
        | error e => rw [h1] at h; cases h
        | ok f =>
          rw [h1] at h
          rw [ih f files' h n, shortenFile_other h1 (.inl hne)]
      · rw [if_neg hr] at h
        exact ih files files' h n
  · rintro n rest rfl hr hf
    unfold shortenAll
    have h1 : shortenFile files cwd n = .error .fileNotFound := by
      unfold shortenFile
      rw [hf]
    rw [List.foldlM_cons, if_pos (List.isSuffixOf_iff_suffix.2 hr), h1]
    rfl

/-! ## Examples -/

example : shortenBoth "a.b.xxx module\n=====\n".toList = "xxx module\n=====\n".toList := by
  decide

example : shortenBoth "a.b package\n=====\nSee a.b module\n".toList = "b package\n=====\nSee a.b module\n".toList := by
  decide

/-- The hypotheses of `C108_both` for 'a.b.xxx'. -/
example : ' ' ∉ "a.b.".toList ++ "xxx".toList ∧ '\n' ∉ "a.b.".toList ++ "xxx".toList ∧ '.' ∉ "xxx".toList ∧ "a.b.".toList = "a.b".toList ++ ['.'] := by decide

/-- A directory with two files. -/
example : ["a.rst".toList, "b.py".toList].Nodup ∧ ".rst".toList <:+ "a.rst".toList ∧ ¬ ".rst".toList <:+ "b.py".toList := by decide

end Verif.DocsNames
