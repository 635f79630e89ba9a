import Verif.Model.LocalToGlobal
import Verif.Lemmas.MultiIndex
import Mathlib.Data.List.Nodup
import Mathlib.Data.List.Sublists
import Mathlib.Tactic.Linarith
import Mathlib.Tactic.Ring
/-!
# The numbering loops of the local-to-global maps
-/

namespace Verif.L2G
open Verif

/-! ## Dictionaries -/

theorem dget?_dset [DecidableEq α] (d : List (α × β)) (k : α) (v : β) (k' : α) :
    dget? (dset d k v) k' = if k = k' then some v else dget? d k' := by
  induction d with
  | nil => simp [dset, dget?]
  | cons p d ih =>
    obtain ⟨a, b⟩ := p
    simp only [dset]
    by_cases h : a = k
    · subst h
      rw [if_pos rfl]
      by_cases h2 : a = k'
      · simp [dget?, h2]
      · simp [dget?, h2]
    · rw [if_neg h]
      simp only [dget?]
      by_cases h2 : a = k'
      · subst h2
        rw [if_pos rfl, if_pos rfl, if_neg (fun h3 => h h3.symm)]
      · rw [if_neg h2, if_neg h2, ih]

theorem mem_keys_dset [DecidableEq α] (d : List (α × β)) (k : α) (v : β) (x : α) :
    x ∈ (dset d k v).map Prod.fst ↔ x = k ∨ x ∈ d.map Prod.fst := by
  induction d with
  | nil => simp [dset]
  | cons p d ih =>
    obtain ⟨a, b⟩ := p
    simp only [dset]
    by_cases h : a = k
    · subst h
      rw [if_pos rfl]
      simp
    · rw [if_neg h, List.map_cons, List.mem_cons, ih, List.map_cons, List.mem_cons]
      tauto

theorem nodup_dset [DecidableEq α] (d : List (α × β)) (k : α) (v : β) (h : (d.map Prod.fst).Nodup) :
    ((dset d k v).map Prod.fst).Nodup := by
  induction d with
  | nil => simp [dset]
  | cons p d ih =>
    obtain ⟨a, b⟩ := p
    simp only [dset]
    rw [List.map_cons, List.nodup_cons] at h
    by_cases h1 : a = k
    · subst h1
      rw [if_pos rfl]
      simp only [List.map_cons, List.nodup_cons]
      exact h
    · rw [if_neg h1, List.map_cons, List.nodup_cons, mem_keys_dset]
      refine ⟨?_, ih h.2⟩
      rintro (h2 | h2)
      · exact h1 h2
      · exact h.1 h2

theorem dget?_eq_some [DecidableEq α] (d : List (α × β)) (h : (d.map Prod.fst).Nodup) (k : α) (v : β) :
    dget? d k = some v ↔ (k, v) ∈ d := by
  induction d with
  | nil => simp [dget?]
  | cons p d ih =>
    obtain ⟨a, b⟩ := p
    rw [List.map_cons, List.nodup_cons] at h
    simp only [dget?]
    by_cases h1 : a = k
    · subst h1
      rw [if_pos rfl, List.mem_cons]
      constructor
      · intro h2
        rw [Option.some.inj h2]
        exact Or.inl rfl
      · rintro (h2 | h2)
        · rw [(Prod.mk.inj h2).2]
        · exact absurd (List.mem_map.2 ⟨_, h2, rfl⟩) h.1
    · rw [if_neg h1, ih h.2, List.mem_cons]
      constructor
      · exact Or.inr
      · rintro (h2 | h2)
        · exact absurd (Prod.mk.inj h2).1.symm h1
        · exact h2

theorem dget?_mem [DecidableEq α] {d : List (α × β)} {k : α} {v : β} (h : dget? d k = some v) : (k, v) ∈ d := by
  induction d with
  | nil => simp [dget?] at h
  | cons p d ih =>
    obtain ⟨a, b⟩ := p
    simp only [dget?] at h
    by_cases h1 : a = k
    · rw [if_pos h1] at h
      rw [h1, Option.some.inj h]
      exact List.mem_cons_self
    · rw [if_neg h1] at h
      exact List.mem_cons_of_mem _ (ih h)

theorem dget?_map [DecidableEq α] (d : List (α × β)) (f : β → γ) (k : α) :
    dget? (d.map (fun kv => (kv.1, f kv.2))) k = (dget? d k).map f := by
  induction d with
  | nil => rfl
  | cons p d ih =>
    obtain ⟨a, b⟩ := p
    simp only [List.map_cons, dget?]
    by_cases h : a = k
    · simp [h]
    · rw [if_neg h, if_neg h, ih]

/-! ## First occurrences -/

/-- The elements of a list in the order of their first occurrences. -/
def firsts [DecidableEq I] (l : List I) : List I := l.foldl (fun acc x => if x ∈ acc then acc else acc ++ [x]) []

section Firsts
variable {I : Type} [DecidableEq I]

theorem mem_firsts (l : List I) (x : I) : x ∈ firsts l ↔ x ∈ l := by
  induction l using List.reverseRecOn with
  | nil => simp [firsts]
  | append_singleton l a ih =>
    unfold firsts at ih ⊢
    rw [List.foldl_append]
    simp only [List.foldl_cons, List.foldl_nil]
    by_cases h : a ∈ l.foldl (fun acc x => if x ∈ acc then acc else acc ++ [x]) []
    · rw [if_pos h, ih, List.mem_append, List.mem_singleton]
      constructor
      · exact Or.inl
      · rintro (h1 | h1)
        · exact h1
        · rw [h1] at ih ⊢
          exact ih.1 h
    · rw [if_neg h, List.mem_append, ih, List.mem_append]

theorem firsts_concat (l : List I) (x : I) : firsts (l ++ [x]) = if x ∈ l then firsts l else firsts l ++ [x] := by
  have h := mem_firsts l x
  have e : firsts (l ++ [x]) = if x ∈ firsts l then firsts l else firsts l ++ [x] := by
    unfold firsts
    rw [List.foldl_append]
    rfl
  rw [e]
  by_cases hx : x ∈ l
  · rw [if_pos hx, if_pos (h.2 hx)]
  · rw [if_neg hx, if_neg (fun h' => hx (h.1 h'))]

theorem nodup_firsts (l : List I) : (firsts l).Nodup := by
  induction l using List.reverseRecOn with
  | nil => simp [firsts]
  | append_singleton l a ih =>
    rw [firsts_concat]
    by_cases h : a ∈ l
    · rw [if_pos h]; exact ih
    · rw [if_neg h, List.nodup_append]
      refine ⟨ih, by simp, ?_⟩
      intro x hx y hy
      rw [List.mem_singleton.1 hy]
      rintro rfl
      exact h ((mem_firsts l x).1 hx)

theorem firsts_of_nodup {l : List I} (h : l.Nodup) : firsts l = l := by
  induction l using List.reverseRecOn with
  | nil => simp [firsts]
  | append_singleton l a ih =>
    rw [List.nodup_append] at h
    rw [firsts_concat, if_neg (fun ha => h.2.2 a ha a (by simp) rfl), ih h.1]

theorem firsts_filter (l : List I) (q : I → Bool) : firsts (l.filter q) = (firsts l).filter q := by
  induction l using List.reverseRecOn with
  | nil => rfl
  | append_singleton l a ih =>
    rw [List.filter_append, firsts_concat]
    by_cases hq : q a = true
    · rw [List.filter_cons_of_pos hq, List.filter_nil, firsts_concat]
      by_cases h : a ∈ l
      · rw [if_pos h, if_pos (List.mem_filter.2 ⟨h, hq⟩), ih]
      · rw [if_neg h, if_neg (fun h' => h (List.mem_filter.1 h').1), ih, List.filter_append, List.filter_cons_of_pos hq, List.filter_nil]
    · rw [List.filter_cons_of_neg hq, List.filter_nil, List.append_nil, ih]
      by_cases h : a ∈ l
      · rw [if_pos h]
      · rw [if_neg h, List.filter_append, List.filter_cons_of_neg hq, List.filter_nil, List.append_nil]

/-- Removing elements does not change the order of the remaining ones. -/
theorem idxOf_filter_lt (l : List I) (q : I → Bool) (x y : I) (hx : x ∈ l) (hy : y ∈ l) (qx : q x = true) (qy : q y = true) :
    (l.filter q).idxOf x < (l.filter q).idxOf y ↔ l.idxOf x < l.idxOf y := by
  induction l with
  | nil => simp at hx
  | cons a l ih =>
    by_cases hax : a = x
    · subst hax
      rw [List.filter_cons_of_pos qx]
      by_cases hay : a = y
      · subst hay; simp
      · simp [hay]
    · by_cases hay : a = y
      · subst hay
        rw [List.filter_cons_of_pos qy]
        simp
      · have hx' : x ∈ l := by
          rcases List.mem_cons.1 hx with h | h
          · exact absurd h.symm hax
          · exact h
        have hy' : y ∈ l := by
          rcases List.mem_cons.1 hy with h | h
          · exact absurd h.symm hay
          · exact h
        rw [List.idxOf_cons_ne _ hax, List.idxOf_cons_ne _ hay]
        by_cases hq : q a = true
        · rw [List.filter_cons_of_pos hq, List.idxOf_cons_ne _ hax, List.idxOf_cons_ne _ hay]
          have := ih hx' hy'
          omega
        · rw [List.filter_cons_of_neg hq]
          have := ih hx' hy'
          omega

end Firsts

/-! ## The invariant of the loops -/

/-- How the pairs (simplex, multi-index) are treated: the identity of a degree of freedom, whether the pair is skipped, whether it gets a
boundary number, and whether (and with which key) it is entered in the dictionary of shared degrees of freedom. -/
structure Rules (I : Type) where
  id : Nat × List Nat → I
  skip : Nat × List Nat → Bool
  bnd : Nat × List Nat → Bool
  keyed : Nat × List Nat → Bool
  key : Nat × List Nat → List Nat × List Nat

section Inv
variable {I : Type} [DecidableEq I]

/-- The degrees of freedom with interior numbers in the order of their numbers after treating `P`. -/
def Rules.F (R : Rules I) (P : List (Nat × List Nat)) : List I := firsts ((P.filter (fun e => !R.skip e && !R.bnd e)).map R.id)

/-- The degrees of freedom with boundary numbers. -/
def Rules.B (R : Rules I) (P : List (Nat × List Nat)) : List I := firsts ((P.filter (fun e => !R.skip e && R.bnd e)).map R.id)

/-- The number that is stored. -/
def Rules.val (R : Rules I) (P : List (Nat × List Nat)) (e : Nat × List Nat) : Int :=
  if R.bnd e then -((R.B P).idxOf (R.id e) : Int) - 1 else ((R.F P).idxOf (R.id e) : Int)

/-- Look up in the nested dictionary. -/
def look2 (sub : List (List Nat × List (List Nat × Int))) (k : List Nat × List Nat) : Option Int := (dget? sub k.1).bind (dget? · k.2)

/-- Look up in the list of dictionaries. -/
def look (maps : List Dict) (e : Nat × List Nat) : Option Int := maps[e.1]?.bind (dget? · e.2)

/-- What the rules have to satisfy on the pairs `E`. -/
structure Rules.Ok (R : Rules I) (E : List (Nat × List Nat)) : Prop where
  fresh : ∀ e ∈ E, ∀ e' ∈ E, R.keyed e = false → R.id e = R.id e' → e = e'
  key : ∀ e ∈ E, ∀ e' ∈ E, R.keyed e = true → R.keyed e' = true → (R.key e = R.key e' ↔ R.id e = R.id e')
  bnd : ∀ e ∈ E, ∀ e' ∈ E, R.id e = R.id e' → R.bnd e = R.bnd e'
  skip : ∀ e ∈ E, ∀ e' ∈ E, R.id e = R.id e' → R.skip e = R.skip e'

/-- The invariant after treating the pairs `P`. -/
structure Inv (R : Rules I) (P : List (Nat × List Nat)) (maps : List Dict) (sub : List (List Nat × List (List Nat × Int))) (next nextB : Int) :
    Prop where
  look : ∀ e, look maps e = if e ∈ P ∧ R.skip e = false then some (R.val P e) else none
  nodup : ∀ d ∈ maps, (d.map Prod.fst).Nodup
  next : next = ((R.F P).length : Int)
  nextB : nextB = -((R.B P).length : Int) - 1
  sub1 : ∀ e ∈ P, R.skip e = false → R.keyed e = true → look2 sub (R.key e) = some (R.val P e)
  sub2 : ∀ k v, look2 sub k = some v → ∃ e ∈ P, R.skip e = false ∧ R.keyed e = true ∧ R.key e = k

theorem look_append_nil (maps : List Dict) (e : Nat × List Nat) : look (maps ++ [[]]) e = look maps e := by
  unfold look
  rcases lt_trichotomy e.1 maps.length with h | h | h
  · rw [List.getElem?_append_left h]
  · rw [h, List.getElem?_append_right le_rfl, Nat.sub_self, List.getElem?_eq_none (l := maps) le_rfl]
    rfl
  · rw [List.getElem?_eq_none (by simp; omega), List.getElem?_eq_none (by omega)]

theorem look_dset (maps : List Dict) (tri : Dict) (mi : List Nat) (v : Int) (e : Nat × List Nat) :
    look (maps ++ [dset tri mi v]) e = if e = (maps.length, mi) then some v else look (maps ++ [tri]) e := by
  obtain ⟨j, nu⟩ := e
  unfold look
  simp only
  rcases lt_trichotomy j maps.length with h | h | h
  · rw [if_neg (by rintro ⟨⟩; omega), List.getElem?_append_left h, List.getElem?_append_left h]
  · subst h
    rw [List.getElem?_append_right le_rfl, List.getElem?_append_right le_rfl, Nat.sub_self]
    simp only [List.getElem?_cons_zero, Option.bind_some, dget?_dset, Prod.mk.injEq, true_and]
    by_cases hm : mi = nu
    · rw [if_pos hm, if_pos hm.symm]
    · rw [if_neg hm, if_neg (fun h => hm h.symm)]
  · rw [if_neg (by rintro ⟨⟩; omega), List.getElem?_eq_none (by simp; omega), List.getElem?_eq_none (by simp; omega)]

theorem Inv.append_nil {R : Rules I} {P maps sub next nextB} (h : Inv R P maps sub next nextB) : Inv R P (maps ++ [[]]) sub next nextB where
  look e := by rw [look_append_nil, h.look]
  nodup d hd := by
    rcases List.mem_append.1 hd with h1 | h1
    · exact h.nodup d h1
    · rw [List.mem_singleton.1 h1]; simp
  next := h.next
  nextB := h.nextB
  sub1 := h.sub1
  sub2 := h.sub2

theorem F_skip (R : Rules I) (P : List (Nat × List Nat)) (e) (h : R.skip e = true) : R.F (P ++ [e]) = R.F P := by
  unfold Rules.F
  rw [List.filter_append, List.filter_cons_of_neg (by simp [h]), List.filter_nil, List.append_nil]

theorem B_skip (R : Rules I) (P : List (Nat × List Nat)) (e) (h : R.skip e = true) : R.B (P ++ [e]) = R.B P := by
  unfold Rules.B
  rw [List.filter_append, List.filter_cons_of_neg (by simp [h]), List.filter_nil, List.append_nil]

theorem F_bnd (R : Rules I) (P : List (Nat × List Nat)) (e) (h : R.bnd e = true) : R.F (P ++ [e]) = R.F P := by
  unfold Rules.F
  rw [List.filter_append, List.filter_cons_of_neg (by simp [h]), List.filter_nil, List.append_nil]

theorem B_nbnd (R : Rules I) (P : List (Nat × List Nat)) (e) (h : R.bnd e = false) : R.B (P ++ [e]) = R.B P := by
  unfold Rules.B
  rw [List.filter_append, List.filter_cons_of_neg (by simp [h]), List.filter_nil, List.append_nil]

theorem F_concat (R : Rules I) (P : List (Nat × List Nat)) (e) (h : R.skip e = false) (hb : R.bnd e = false) :
    R.F (P ++ [e]) = if R.id e ∈ R.F P then R.F P else R.F P ++ [R.id e] := by
  unfold Rules.F
  rw [List.filter_append, List.filter_cons_of_pos (by simp [h, hb]), List.filter_nil, List.map_append, List.map_singleton, firsts_concat]
  simp only [mem_firsts]

theorem B_concat (R : Rules I) (P : List (Nat × List Nat)) (e) (h : R.skip e = false) (hb : R.bnd e = true) :
    R.B (P ++ [e]) = if R.id e ∈ R.B P then R.B P else R.B P ++ [R.id e] := by
  unfold Rules.B
  rw [List.filter_append, List.filter_cons_of_pos (by simp [h, hb]), List.filter_nil, List.map_append, List.map_singleton, firsts_concat]
  simp only [mem_firsts]

theorem mem_F (R : Rules I) (P : List (Nat × List Nat)) (i : I) : i ∈ R.F P ↔ ∃ e ∈ P, R.skip e = false ∧ R.bnd e = false ∧ R.id e = i := by
  unfold Rules.F
  rw [mem_firsts, List.mem_map]
  constructor
  · rintro ⟨e, h1, h2⟩
    rw [List.mem_filter] at h1
    exact ⟨e, h1.1, by simpa using (by simpa using h1.2 : R.skip e = false ∧ R.bnd e = false).1, (by simpa using h1.2 : R.skip e = false ∧ R.bnd e = false).2, h2⟩
  · rintro ⟨e, h1, h2, h3, h4⟩
    exact ⟨e, List.mem_filter.2 ⟨h1, by simp [h2, h3]⟩, h4⟩

theorem mem_B (R : Rules I) (P : List (Nat × List Nat)) (i : I) : i ∈ R.B P ↔ ∃ e ∈ P, R.skip e = false ∧ R.bnd e = true ∧ R.id e = i := by
  unfold Rules.B
  rw [mem_firsts, List.mem_map]
  constructor
  · rintro ⟨e, h1, h2⟩
    rw [List.mem_filter] at h1
    exact ⟨e, h1.1, (by simpa using h1.2 : R.skip e = false ∧ R.bnd e = true).1, (by simpa using h1.2 : R.skip e = false ∧ R.bnd e = true).2, h2⟩
  · rintro ⟨e, h1, h2, h3, h4⟩
    exact ⟨e, List.mem_filter.2 ⟨h1, by simp [h2, h3]⟩, h4⟩

/-- Numbers that were given do not change. -/
theorem val_stable (R : Rules I) (P : List (Nat × List Nat)) (x e) (he : e ∈ P) (hs : R.skip e = false) : R.val (P ++ [x]) e = R.val P e := by
  unfold Rules.val
  cases hb : R.bnd e with
  | true =>
    simp only [if_true]
    have hm : R.id e ∈ R.B P := (mem_B R P _).2 ⟨e, he, hs, hb, rfl⟩
    cases hxs : R.skip x with
    | true => rw [B_skip R P x hxs]
    | false =>
      cases hxb : R.bnd x with
      | false => rw [B_nbnd R P x hxb]
      | true =>
        rw [B_concat R P x hxs hxb]
        by_cases hx : R.id x ∈ R.B P
        · rw [if_pos hx]
        · rw [if_neg hx, List.idxOf_append_of_mem hm]
  | false =>
    simp only [Bool.false_eq_true, if_false]
    have hm : R.id e ∈ R.F P := (mem_F R P _).2 ⟨e, he, hs, hb, rfl⟩
    cases hxs : R.skip x with
    | true => rw [F_skip R P x hxs]
    | false =>
      cases hxb : R.bnd x with
      | true => rw [F_bnd R P x hxb]
      | false =>
        rw [F_concat R P x hxs hxb]
        by_cases hx : R.id x ∈ R.F P
        · rw [if_pos hx]
        · rw [if_neg hx, List.idxOf_append_of_mem hm]

/-- A pair is skipped. -/
theorem Inv.move_skip {R : Rules I} {P maps sub next nextB} (h : Inv R P maps sub next nextB) (e) (he : R.skip e = true) :
    Inv R (P ++ [e]) maps sub next nextB where
  look e' := by
    rw [h.look]
    by_cases h1 : e' ∈ P ∧ R.skip e' = false
    · rw [if_pos h1, if_pos ⟨by simp [h1.1], h1.2⟩, val_stable R P e e' h1.1 h1.2]
    · rw [if_neg h1, if_neg]
      rintro ⟨h2, h3⟩
      rcases List.mem_append.1 h2 with h4 | h4
      · exact h1 ⟨h4, h3⟩
      · rw [List.mem_singleton.1 h4, he] at h3
        cases h3
  nodup := h.nodup
  next := by rw [F_skip R P e he]; exact h.next
  nextB := by rw [B_skip R P e he]; exact h.nextB
  sub1 e' h1 h2 h3 := by
    rcases List.mem_append.1 h1 with h4 | h4
    · rw [val_stable R P e e' h4 h2]; exact h.sub1 e' h4 h2 h3
    · rw [List.mem_singleton.1 h4, he] at h2; cases h2
  sub2 k v hk := by
    obtain ⟨e', h1, h2⟩ := h.sub2 k v hk
    exact ⟨e', by simp [h1], h2⟩

theorem look_new {R : Rules I} {P maps tri sub next nextB} (h : Inv R P (maps ++ [tri]) sub next nextB) (mi : List Nat) (v : Int)
    (hs : R.skip (maps.length, mi) = false) (hv : R.val (P ++ [(maps.length, mi)]) (maps.length, mi) = v) (e') :
    look (maps ++ [dset tri mi v]) e' =
      if e' ∈ P ++ [(maps.length, mi)] ∧ R.skip e' = false then some (R.val (P ++ [(maps.length, mi)]) e') else none := by
  rw [look_dset]
  by_cases h1 : e' = (maps.length, mi)
  · subst h1
    rw [if_pos rfl, if_pos ⟨by simp, hs⟩, hv]
  · rw [if_neg h1, h.look]
    by_cases h2 : e' ∈ P ∧ R.skip e' = false
    · rw [if_pos h2, if_pos ⟨by simp [h2.1], h2.2⟩, val_stable R P _ e' h2.1 h2.2]
    · rw [if_neg h2, if_neg]
      rintro ⟨h3, h4⟩
      rcases List.mem_append.1 h3 with h5 | h5
      · exact h2 ⟨h5, h4⟩
      · exact h1 (List.mem_singleton.1 h5)

theorem nodup_new {maps : List Dict} {tri : Dict} (h : ∀ d ∈ maps ++ [tri], (d.map Prod.fst).Nodup) (mi : List Nat) (v : Int) :
    ∀ d ∈ maps ++ [dset tri mi v], (d.map Prod.fst).Nodup := by
  intro d hd
  rcases List.mem_append.1 hd with h1 | h1
  · exact h d (by simp [h1])
  · rw [List.mem_singleton.1 h1]
    exact nodup_dset _ _ _ (h tri (by simp))

/-- A pair gets a new number. -/
theorem Inv.move_new {R : Rules I} {E P maps tri sub next nextB} (hR : R.Ok E) (h : Inv R P (maps ++ [tri]) sub next nextB) (hP : ∀ e ∈ P, e ∈ E)
    (mi : List Nat) (hE : (maps.length, mi) ∈ E) (hs : R.skip (maps.length, mi) = false)
    (hnew : ∀ e ∈ P, R.skip e = false → R.id e ≠ R.id (maps.length, mi)) (sub')
    (hsub : ∀ k, look2 sub' k = if R.keyed (maps.length, mi) = true ∧ k = R.key (maps.length, mi) then
      some (if R.bnd (maps.length, mi) then nextB else next) else look2 sub k) :
    Inv R (P ++ [(maps.length, mi)]) (maps ++ [dset tri mi (if R.bnd (maps.length, mi) then nextB else next)]) sub'
      (if R.bnd (maps.length, mi) then next else next + 1) (if R.bnd (maps.length, mi) then nextB - 1 else nextB) := by
  have hv : R.val (P ++ [(maps.length, mi)]) (maps.length, mi) = if R.bnd (maps.length, mi) then nextB else next := by
    unfold Rules.val
    cases hb : R.bnd (maps.length, mi) with
    | true =>
      have hn : R.id (maps.length, mi) ∉ R.B P := by
        rw [mem_B]
        rintro ⟨e, h1, h2, h3, h4⟩
        exact hnew e h1 h2 h4
      simp only [if_true]
      rw [B_concat R P _ hs hb, if_neg hn, List.idxOf_append_of_notMem hn, h.nextB]
      simp
    | false =>
      have hn : R.id (maps.length, mi) ∉ R.F P := by
        rw [mem_F]
        rintro ⟨e, h1, h2, h3, h4⟩
        exact hnew e h1 h2 h4
      simp only [Bool.false_eq_true, if_false]
      rw [F_concat R P _ hs hb, if_neg hn, List.idxOf_append_of_notMem hn, h.next]
      simp
  refine ⟨look_new h mi _ hs hv, nodup_new h.nodup mi _, ?_, ?_, ?_, ?_⟩
  · cases hb : R.bnd (maps.length, mi) with
    | true => rw [F_bnd R P _ hb]; simpa using h.next
    | false =>
      have hn : R.id (maps.length, mi) ∉ R.F P := by
        rw [mem_F]
        rintro ⟨e, h1, h2, h3, h4⟩
        exact hnew e h1 h2 h4
      rw [F_concat R P _ hs hb, if_neg hn, h.next]
      simp
  · cases hb : R.bnd (maps.length, mi) with
    | false => rw [B_nbnd R P _ hb]; simpa using h.nextB
    | true =>
      have hn : R.id (maps.length, mi) ∉ R.B P := by
        rw [mem_B]
        rintro ⟨e, h1, h2, h3, h4⟩
        exact hnew e h1 h2 h4
      rw [B_concat R P _ hs hb, if_neg hn, h.nextB]
      simp
      ring
  · intro e h1 h2 h3
    rw [hsub]
    rcases List.mem_append.1 h1 with h4 | h4
    · rw [val_stable R P _ e h4 h2, if_neg]
      · exact h.sub1 e h4 h2 h3
      · rintro ⟨h5, h6⟩
        exact hnew e h4 h2 ((hR.key e (hP e h4) _ hE h3 h5).1 h6)
    · rw [List.mem_singleton.1 h4] at h3 ⊢
      rw [if_pos ⟨h3, rfl⟩, hv]
  · intro k v hk
    rw [hsub] at hk
    by_cases h1 : R.keyed (maps.length, mi) = true ∧ k = R.key (maps.length, mi)
    · exact ⟨_, by simp, hs, h1.1, h1.2.symm⟩
    · rw [if_neg h1] at hk
      obtain ⟨e, h2, h3⟩ := h.sub2 k v hk
      exact ⟨e, by simp [h2], h3⟩

/-- A pair gets the number that is stored for its degree of freedom. -/
theorem Inv.move_old {R : Rules I} {E P maps tri sub next nextB} (hR : R.Ok E) (h : Inv R P (maps ++ [tri]) sub next nextB) (hP : ∀ e ∈ P, e ∈ E)
    (mi : List Nat) (hE : (maps.length, mi) ∈ E) (hs : R.skip (maps.length, mi) = false) (hk : R.keyed (maps.length, mi) = true) (v : Int)
    (hv : look2 sub (R.key (maps.length, mi)) = some v) (sub') (hsub : ∀ k, look2 sub' k = look2 sub k) :
    Inv R (P ++ [(maps.length, mi)]) (maps ++ [dset tri mi v]) sub' next nextB := by
  obtain ⟨e, he, hes, hek, hee⟩ := h.sub2 _ _ hv
  have hid : R.id e = R.id (maps.length, mi) := (hR.key e (hP e he) _ hE hek hk).1 hee
  have hbnd := hR.bnd e (hP e he) _ hE hid
  have hF : R.F (P ++ [(maps.length, mi)]) = R.F P := by
    cases hb : R.bnd (maps.length, mi) with
    | true => exact F_bnd R P _ hb
    | false => rw [F_concat R P _ hs hb, if_pos ((mem_F R P _).2 ⟨e, he, hes, by rw [hbnd, hb], hid⟩)]
  have hB : R.B (P ++ [(maps.length, mi)]) = R.B P := by
    cases hb : R.bnd (maps.length, mi) with
    | false => exact B_nbnd R P _ hb
    | true => rw [B_concat R P _ hs hb, if_pos ((mem_B R P _).2 ⟨e, he, hes, by rw [hbnd, hb], hid⟩)]
  have hval : R.val (P ++ [(maps.length, mi)]) (maps.length, mi) = v := by
    have h1 := h.sub1 e he hes hek
    rw [hee, hv] at h1
    rw [Option.some.inj h1]
    unfold Rules.val
    rw [hF, hB, hbnd, hid]
  refine ⟨look_new h mi _ hs hval, nodup_new h.nodup mi _, ?_, ?_, ?_, ?_⟩
  · rw [hF]; exact h.next
  · rw [hB]; exact h.nextB
  · intro e' h1 h2 h3
    rw [hsub]
    rcases List.mem_append.1 h1 with h4 | h4
    · rw [val_stable R P _ e' h4 h2]
      exact h.sub1 e' h4 h2 h3
    · rw [List.mem_singleton.1 h4, hv, hval]
  · intro k w hw
    rw [hsub] at hw
    obtain ⟨e', h2, h3⟩ := h.sub2 k w hw
    exact ⟨e', by simp [h2], h3⟩

/-! ## The loops -/

/-- The pairs in the order in which they are treated. -/
def evs (T : Nat) (mis : List (List Nat)) : List (Nat × List Nat) := (List.range T).flatMap (fun j => mis.map (fun mi => (j, mi)))

theorem evs_succ (T : Nat) (mis : List (List Nat)) : evs (T + 1) mis = evs T mis ++ mis.map (fun mi => (T, mi)) := by
  simp [evs, List.range_succ]

theorem mem_evs (T : Nat) (mis : List (List Nat)) (e : Nat × List Nat) : e ∈ evs T mis ↔ e.1 < T ∧ e.2 ∈ mis := by
  obtain ⟨j, mi⟩ := e
  simp [evs]

/-- What has to be shown about the body of the inner loop. -/
def StepOk (R : Rules I) (E : List (Nat × List Nat)) (j : Nat) (step : State → List Nat → Py State) : Prop :=
  ∀ P st mi, Inv R P (st.maps ++ [st.tri]) st.sub st.next st.nextB → st.maps.length = j → (∀ e ∈ P, e ∈ E) → (j, mi) ∈ E → (j, mi) ∉ P →
    ∃ st', step st mi = .ok st' ∧ st'.maps = st.maps ∧ Inv R (P ++ [(j, mi)]) (st'.maps ++ [st'.tri]) st'.sub st'.next st'.nextB

theorem inner_loop {R : Rules I} {E : List (Nat × List Nat)} {j : Nat} {step : State → List Nat → Py State} (hstep : StepOk R E j step) :
    ∀ (ms : List (List Nat)) (P : List (Nat × List Nat)) (st : State), Inv R P (st.maps ++ [st.tri]) st.sub st.next st.nextB →
      st.maps.length = j → (∀ e ∈ P, e ∈ E) → (∀ mi ∈ ms, (j, mi) ∈ E) → ms.Nodup → (∀ mi ∈ ms, (j, mi) ∉ P) →
      ∃ st', ms.foldlM step st = .ok st' ∧ st'.maps = st.maps ∧
        Inv R (P ++ ms.map (fun mi => (j, mi))) (st'.maps ++ [st'.tri]) st'.sub st'.next st'.nextB
  | [], P, st, h, _, _, _, _, _ => ⟨st, rfl, rfl, by simpa using h⟩
  | mi :: ms, P, st, h, hj, hP, hE, hn, hf => by
    obtain ⟨st1, h1, h2, h3⟩ := hstep P st mi h hj hP (hE mi (by simp)) (hf mi (by simp))
    rw [List.nodup_cons] at hn
    obtain ⟨st2, h4, h5, h6⟩ := inner_loop hstep ms (P ++ [(j, mi)]) st1 h3 (by rw [h2, hj])
      (by
        intro e he
        rcases List.mem_append.1 he with h7 | h7
        · exact hP e h7
        · rw [List.mem_singleton.1 h7]; exact hE mi (by simp))
      (fun m hm => hE m (by simp [hm])) hn.2
      (by
        intro m hm hc
        rcases List.mem_append.1 hc with h7 | h7
        · exact hf m (by simp [hm]) h7
        · rw [← (Prod.mk.inj (List.mem_singleton.1 h7)).2] at hn
          exact hn.1 hm)
    refine ⟨st2, ?_, by rw [h5, h2], by simpa using h6⟩
    rw [List.foldlM_cons, h1, Py.bind_ok, h4]

theorem outer_loop {R : Rules I} {mis : List (List Nat)} (hn : mis.Nodup) (triangles : List (List Nat))
    (step : List Nat → State → List Nat → Py State)
    (hstep : ∀ j (hj : j < triangles.length), StepOk R (evs triangles.length mis) j (step triangles[j])) :
    ∃ st, triangles.foldlM (triangleLoop step mis) State.init = .ok st ∧ st.maps.length = triangles.length ∧
      Inv R (evs triangles.length mis) st.maps st.sub st.next st.nextB := by
  have main : ∀ k ≤ triangles.length, ∃ st, (triangles.take k).foldlM (triangleLoop step mis) State.init = .ok st ∧ st.maps.length = k ∧
      Inv R (evs k mis) st.maps st.sub st.next st.nextB := by
    intro k
    induction k with
    | zero =>
      intro _
      refine ⟨State.init, by simp, rfl, ⟨?_, ?_, ?_, ?_, ?_, ?_⟩⟩
      · intro e; simp [look, State.init, evs]
      · intro d hd; simp [State.init] at hd
      · rfl
      · rfl
      · intro e he; simp [evs] at he
      · intro k v hk; simp [look2, State.init, dget?] at hk
    | succ k ih =>
      intro hk
      obtain ⟨st, h1, h2, h3⟩ := ih (by omega)
      have hlt : k < triangles.length := by omega
      obtain ⟨st', h4, h5, h6⟩ := inner_loop (hstep k hlt) mis (evs k mis) { st with tri := [] } h3.append_nil h2
        (fun e he => by rw [mem_evs] at he ⊢; exact ⟨by omega, he.2⟩)
        (fun mi hmi => by rw [mem_evs]; exact ⟨hlt, hmi⟩) hn
        (fun mi _ hc => by rw [mem_evs] at hc; exact absurd hc.1 (by simp))
      refine ⟨{ st' with maps := st'.maps ++ [st'.tri] }, ?_, ?_, ?_⟩
      · rw [List.take_succ_eq_append_getElem hlt, List.foldlM_append, h1, Py.bind_ok]
        simp only [List.foldlM_cons, List.foldlM_nil, triangleLoop]
        rw [h4]
        rfl
      · simp only [List.length_append, List.length_singleton, h5, h2]
      · rw [evs_succ]
        exact h6
  have := main triangles.length le_rfl
  rwa [List.take_length] at this

/-! ## The second pass -/

theorem foldl_max_spec {γ : Type} (l : List γ) (f : γ → Int) : ∀ (a : Int),
    a ≤ l.foldl (fun acc x => if f x < 0 then max acc (-f x) else acc) a ∧
    (∀ x ∈ l, -f x ≤ l.foldl (fun acc x => if f x < 0 then max acc (-f x) else acc) a ∨ 0 ≤ f x) ∧
    (∀ b, a ≤ b → (∀ x ∈ l, f x < 0 → -f x ≤ b) → l.foldl (fun acc x => if f x < 0 then max acc (-f x) else acc) a ≤ b) := by
  induction l with
  | nil => intro a; simp
  | cons y l ih =>
    intro a
    rw [List.foldl_cons]
    obtain ⟨h1, h2, h3⟩ := ih (if f y < 0 then max a (-f y) else a)
    refine ⟨?_, ?_, ?_⟩
    · refine le_trans ?_ h1
      split
      · exact le_max_left _ _
      · exact le_rfl
    · intro x hx
      rcases List.mem_cons.1 hx with rfl | hx
      · by_cases hf : f x < 0
        · left
          refine le_trans ?_ h1
          rw [if_pos hf]
          exact le_max_right _ _
        · right; omega
      · exact h2 x hx
    · intro b hb hx
      refine h3 b ?_ (fun x hx' => hx x (by simp [hx']))
      split
      · rename_i hf
        exact max_le hb (hx y (by simp) hf)
      · exact hb

theorem foldl_foldl_flatten {γ δ : Type} (f : δ → γ → δ) (ls : List (List γ)) (a : δ) :
    ls.foldl (fun acc d => d.foldl f acc) a = ls.flatten.foldl f a := by
  induction ls generalizing a with
  | nil => rfl
  | cons l ls ih => rw [List.foldl_cons, List.flatten_cons, List.foldl_append, ih]

/-- The values in the dictionaries. -/
theorem mem_flatten_maps {R : Rules I} {P maps sub next nextB} (h : Inv R P maps sub next nextB) (kv : List Nat × Int) :
    kv ∈ maps.flatten ↔ ∃ j, (j, kv.1) ∈ P ∧ R.skip (j, kv.1) = false ∧ R.val P (j, kv.1) = kv.2 := by
  rw [List.mem_flatten]
  constructor
  · rintro ⟨d, hd, hkv⟩
    obtain ⟨j, hj⟩ := List.mem_iff_getElem?.1 hd
    have h1 := h.look (j, kv.1)
    unfold L2G.look at h1
    rw [hj, Option.bind_some, (dget?_eq_some d (h.nodup d hd) kv.1 kv.2).2 hkv] at h1
    by_cases h2 : (j, kv.1) ∈ P ∧ R.skip (j, kv.1) = false
    · rw [if_pos h2] at h1
      exact ⟨j, h2.1, h2.2, (Option.some.inj h1).symm⟩
    · rw [if_neg h2] at h1; cases h1
  · rintro ⟨j, h1, h2, h3⟩
    have h4 := h.look (j, kv.1)
    rw [if_pos ⟨h1, h2⟩, h3] at h4
    unfold L2G.look at h4
    obtain ⟨d, hd, h5⟩ := Option.bind_eq_some_iff.1 h4
    exact ⟨d, List.mem_of_getElem? hd, dget?_mem h5⟩

theorem numBoundary_eq {R : Rules I} {P maps sub next nextB} (h : Inv R P maps sub next nextB) :
    maps.foldl (fun acc d => d.foldl (fun acc kv => if kv.2 < 0 then max acc (-kv.2) else acc) acc) (0 : Int) = ((R.B P).length : Int) := by
  rw [foldl_foldl_flatten]
  obtain ⟨h1, h2, h3⟩ := foldl_max_spec maps.flatten (fun kv : List Nat × Int => kv.2) 0
  refine le_antisymm ?_ ?_
  · refine h3 _ (by omega) ?_
    intro kv hkv hneg
    obtain ⟨j, h4, h5, h6⟩ := (mem_flatten_maps h kv).1 hkv
    unfold Rules.val at h6
    cases hb : R.bnd (j, kv.1) with
    | false => rw [hb] at h6; simp at h6; omega
    | true =>
      rw [hb, if_pos rfl] at h6
      have := List.idxOf_lt_length_iff.2 ((mem_B R P _).2 ⟨_, h4, h5, hb, rfl⟩)
      omega
  · by_cases h0 : (R.B P).length = 0
    · rw [h0]; exact h1
    · have hlt : (R.B P).length - 1 < (R.B P).length := by omega
      obtain ⟨e, h4, h5, hb, h6⟩ := (mem_B R P _).1 (List.getElem_mem hlt)
      have hval : R.val P e = -((R.B P).length : Int) := by
        unfold Rules.val
        have hnd : (R.B P).Nodup := nodup_firsts _
        rw [hb, if_pos rfl, h6, hnd.idxOf_getElem]
        omega
      rcases h2 (e.2, R.val P e) ((mem_flatten_maps h _).2 ⟨e.1, h4, h5, rfl⟩) with h7 | h7
      · simp only at h7
        rw [hval] at h7
        omega
      · simp only at h7
        omega

/-- The final number of a pair. -/
def Rules.pos (R : Rules I) (P : List (Nat × List Nat)) (e : Nat × List Nat) : Nat := (R.F P ++ R.B P).idxOf (R.id e)

/-- The final numbering: the position among the degrees of freedom, first those in the interior. -/
theorem finish_look {R : Rules I} {P} {st : State} (hR : R.Ok P) (h : Inv R P st.maps st.sub st.next st.nextB) (keep : Bool)
    (hk : keep = false → ∀ e ∈ P, R.skip e = false → R.bnd e = false) :
    (∀ e, look (finish keep st).maps e = if e ∈ P ∧ R.skip e = false then some ((R.pos P e : Nat) : Int) else none) ∧
    (finish keep st).numDofs = ((R.F P ++ R.B P).length : Int) ∧
    (finish keep st).numInterior = if keep then some ((R.F P).length : Int) else none := by
  unfold Rules.pos
  cases keep with
  | false =>
    have hB : R.B P = [] := by
      rw [List.eq_nil_iff_forall_not_mem]
      intro i hi
      obtain ⟨e, h1, h2, h3, -⟩ := (mem_B R P i).1 hi
      rw [hk rfl e h1 h2] at h3
      cases h3
    refine ⟨?_, ?_, ?_⟩
    · intro e
      simp only [finish, Bool.false_eq_true, if_false]
      rw [h.look, hB, List.append_nil]
      by_cases h1 : e ∈ P ∧ R.skip e = false
      · rw [if_pos h1, if_pos h1]
        unfold Rules.val
        rw [hk rfl e h1.1 h1.2]
        rfl
      · rw [if_neg h1, if_neg h1]
    · simp only [finish, Bool.false_eq_true, if_false]
      rw [h.next, hB, List.append_nil]
    · rfl
  | true =>
    refine ⟨?_, ?_, ?_⟩
    · intro e
      simp only [finish, if_true]
      unfold look
      rw [List.getElem?_map]
      have h1 := h.look e
      unfold look at h1
      cases hd : st.maps[e.1]? with
      | none =>
        rw [hd] at h1
        simp only [Option.map_none, Option.bind_none] at h1 ⊢
        by_cases h2 : e ∈ P ∧ R.skip e = false
        · rw [if_pos h2] at h1; cases h1
        · rw [if_neg h2]
      | some d =>
        rw [hd, Option.bind_some] at h1
        simp only [Option.map_some, Option.bind_some]
        rw [dget?_map d (fun v => if v < 0 then st.next + (-v) - 1 else v), h1]
        by_cases h2 : e ∈ P ∧ R.skip e = false
        · rw [if_pos h2, if_pos h2, Option.map_some, h.next]
          congr 1
          unfold Rules.val
          cases hb : R.bnd e with
          | false =>
            have hm := (mem_F R P _).2 ⟨e, h2.1, h2.2, hb, rfl⟩
            rw [List.idxOf_append_of_mem hm]
            simp
          | true =>
            have hm : R.id e ∉ R.F P := by
              intro hm
              obtain ⟨e', h3, h4, h5, h6⟩ := (mem_F R P _).1 hm
              rw [hR.bnd e' h3 e h2.1 h6, hb] at h5
              cases h5
            rw [List.idxOf_append_of_notMem hm, if_pos rfl, if_pos (by omega)]
            push_cast
            ring
        · rw [if_neg h2, if_neg h2]; rfl
    · simp only [finish, if_true]
      rw [h.next, numBoundary_eq h, List.length_append]
      push_cast; ring
    · simp only [finish, if_true]
      rw [h.next]

/-! ## Consequences for the final numbers -/

theorem mem_FB (R : Rules I) (P : List (Nat × List Nat)) (i : I) : i ∈ R.F P ++ R.B P ↔ ∃ e ∈ P, R.skip e = false ∧ R.id e = i := by
  rw [List.mem_append, mem_F, mem_B]
  constructor
  · rintro (⟨e, h1, h2, -, h3⟩ | ⟨e, h1, h2, -, h3⟩) <;> exact ⟨e, h1, h2, h3⟩
  · rintro ⟨e, h1, h2, h3⟩
    cases hb : R.bnd e with
    | false => exact Or.inl ⟨e, h1, h2, hb, h3⟩
    | true => exact Or.inr ⟨e, h1, h2, hb, h3⟩

theorem nodup_FB {R : Rules I} {P : List (Nat × List Nat)} (hR : R.Ok P) : (R.F P ++ R.B P).Nodup := by
  rw [List.nodup_append]
  refine ⟨nodup_firsts _, nodup_firsts _, ?_⟩
  rintro i hi i' hi' rfl
  obtain ⟨e, h1, h2, h3, h4⟩ := (mem_F R P i).1 hi
  obtain ⟨e', h1', h2', h3', h4'⟩ := (mem_B R P i).1 hi'
  rw [hR.bnd e h1 e' h1' (by rw [h4, h4']), h3'] at h3
  cases h3

theorem pos_lt {R : Rules I} {P : List (Nat × List Nat)} {e} (he : e ∈ P) (hs : R.skip e = false) : R.pos P e < (R.F P ++ R.B P).length :=
  List.idxOf_lt_length_iff.2 ((mem_FB R P _).2 ⟨e, he, hs, rfl⟩)

theorem pos_eq_iff {R : Rules I} {P : List (Nat × List Nat)} {e e'} (he : e ∈ P) (hs : R.skip e = false) :
    R.pos P e = R.pos P e' ↔ R.id e = R.id e' := by
  unfold Rules.pos
  constructor
  · intro h
    have h1 := List.getElem_idxOf (List.idxOf_lt_length_iff.2 ((mem_FB R P _).2 ⟨e, he, hs, rfl⟩))
    have h2 : (R.F P ++ R.B P).idxOf (R.id e') < (R.F P ++ R.B P).length := by rw [← h]; exact pos_lt he hs
    have h3 := List.getElem_idxOf h2
    rw [← h1, ← h3]
    simp only [h]
  · intro h; rw [h]

theorem pos_surj {R : Rules I} {P : List (Nat × List Nat)} (hR : R.Ok P) {i : Nat} (hi : i < (R.F P ++ R.B P).length) :
    ∃ e ∈ P, R.skip e = false ∧ R.pos P e = i := by
  obtain ⟨e, h1, h2, h3⟩ := (mem_FB R P _).1 (List.getElem_mem hi)
  refine ⟨e, h1, h2, ?_⟩
  unfold Rules.pos
  rw [h3, (nodup_FB hR).idxOf_getElem]

theorem pos_lt_F {R : Rules I} {P : List (Nat × List Nat)} (hR : R.Ok P) {e} (he : e ∈ P) (hs : R.skip e = false) :
    R.pos P e < (R.F P).length ↔ R.bnd e = false := by
  unfold Rules.pos
  constructor
  · intro h
    by_contra hb
    have hm : R.id e ∉ R.F P := by
      intro hm
      obtain ⟨e', h3, h4, h5, h6⟩ := (mem_F R P _).1 hm
      rw [hR.bnd e' h3 e he h6] at h5
      exact hb h5
    rw [List.idxOf_append_of_notMem hm] at h
    omega
  · intro hb
    have hm := (mem_F R P _).2 ⟨e, he, hs, hb, rfl⟩
    rw [List.idxOf_append_of_mem hm]
    exact List.idxOf_lt_length_iff.2 hm

/-- The interior numbers only depend on which pairs are in the interior. -/
theorem pos_congr {R R' : Rules I} {P : List (Nat × List Nat)} (hid : ∀ e ∈ P, R.id e = R'.id e)
    (hnb : ∀ e ∈ P, (R.skip e = false ∧ R.bnd e = false) ↔ (R'.skip e = false ∧ R'.bnd e = false)) :
    R.F P = R'.F P ∧ ∀ e ∈ P, R.skip e = false → R.bnd e = false → R.pos P e = R'.pos P e := by
  have hF : R.F P = R'.F P := by
    unfold Rules.F
    have h1 : P.filter (fun e => !R.skip e && !R.bnd e) = P.filter (fun e => !R'.skip e && !R'.bnd e) := by
      refine List.filter_congr (fun e he => ?_)
      have := hnb e he
      rw [Bool.eq_iff_iff]
      simpa using this
    rw [h1]
    congr 1
    refine List.map_congr_left (fun e he => hid e (List.mem_filter.1 he).1)
  refine ⟨hF, ?_⟩
  intro e he hs hb
  have hm := (mem_F R P _).2 ⟨e, he, hs, hb, rfl⟩
  unfold Rules.pos
  rw [List.idxOf_append_of_mem hm, ← hF, ← hid e he, List.idxOf_append_of_mem hm]

/-- The order of the interior numbers is that of the numbers without boundary. -/
theorem pos_order {R R0 : Rules I} {P : List (Nat × List Nat)} (hR : R.Ok P) (hid : ∀ e ∈ P, R.id e = R0.id e)
    (h0 : ∀ e ∈ P, R0.skip e = false ∧ R0.bnd e = false) {e e'} (he : e ∈ P) (hs : R.skip e = false) (hb : R.bnd e = false) (he' : e' ∈ P)
    (hs' : R.skip e' = false) (hb' : R.bnd e' = false) : R.pos P e < R.pos P e' ↔ R0.pos P e < R0.pos P e' := by
  have hF0 : R0.F P = firsts (P.map R.id) := by
    unfold Rules.F
    rw [List.filter_eq_self.2 (fun x hx => by simp [h0 x hx])]
    rw [List.map_congr_left (fun x hx => (hid x hx).symm)]
  let q : I → Bool := fun i => decide (∃ x ∈ P, (R.skip x = false ∧ R.bnd x = false) ∧ R.id x = i)
  have hq : ∀ x ∈ P, q (R.id x) = (!R.skip x && !R.bnd x) := by
    intro x hx
    rw [Bool.eq_iff_iff]
    simp only [q, decide_eq_true_eq, Bool.and_eq_true, Bool.not_eq_true']
    constructor
    · rintro ⟨y, hy, ⟨h1, h2⟩, h3⟩
      exact ⟨by rw [← hR.skip y hy x hx h3]; exact h1, by rw [← hR.bnd y hy x hx h3]; exact h2⟩
    · intro h
      exact ⟨x, hx, h, rfl⟩
  have hF : R.F P = (R0.F P).filter q := by
    rw [hF0, ← firsts_filter]
    unfold Rules.F
    congr 1
    rw [List.filter_map]
    congr 1
    refine List.filter_congr (fun x hx => ?_)
    rw [Function.comp_apply, hq x hx]
  have hm := (mem_F R P _).2 ⟨e, he, hs, hb, rfl⟩
  have hm' := (mem_F R P _).2 ⟨e', he', hs', hb', rfl⟩
  have hm0 : R0.id e ∈ R0.F P := (mem_F R0 P _).2 ⟨e, he, (h0 e he).1, (h0 e he).2, rfl⟩
  have hm0' : R0.id e' ∈ R0.F P := (mem_F R0 P _).2 ⟨e', he', (h0 e' he').1, (h0 e' he').2, rfl⟩
  unfold Rules.pos
  rw [List.idxOf_append_of_mem hm, List.idxOf_append_of_mem hm', List.idxOf_append_of_mem hm0, List.idxOf_append_of_mem hm0']
  rw [hid e he, hid e' he', hF] at *
  exact idxOf_filter_lt _ q _ _ hm0 hm0' (List.mem_filter.1 hm).2 (List.mem_filter.1 hm').2

end Inv
end Verif.L2G
