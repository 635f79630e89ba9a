import Verif.Model.MultiIndexDict
import Verif.Model.LocalToGlobal
/-!
# C105: multi-indices as keys of dictionaries

The statements hold for every hash function, so they do not depend on collisions.
-/

namespace Verif.MIDict
open Verif

variable {V : Type}

/-! ## Specification -/

/-- The last value in a list of assignments to a key with the components `c`. -/
def lastValue (mem : Mem) (l : List (Nat × V)) (c : List Nat) : Option V :=
  (l.reverse.find? fun p => decide ((mem p.1).comps = c)).map Prod.snd

/-- What Python does with a value or a missing key. -/
def orKeyError : Option V → Py V
  | some v => .ok v
  | none => .error .key

/-- No key was changed since it was inserted. -/
def Intact (hash : List Nat → Int) (mem : Mem) (d : List (Entry V)) : Prop := ∀ e ∈ d, e.hash = hash (mem e.key).comps

/-- Two objects whose comparison does not raise, provided it takes place. -/
def Comparable (hash : List Nat → Int) (a b : Obj) : Prop :=
  hash a.comps = hash b.comps → a.comps.length = b.comps.length ∨ (a.isTuple = true ∧ b.isTuple = true)

/-- The keys and values of a dictionary. -/
def items (mem : Mem) (d : List (Entry V)) : List (List Nat × V) := d.map fun e => ((mem e.key).comps, e.val)

/-! ## Equality -/

theorem mi_eq_ok {a b : List Nat} (h : a.length = b.length) : MI.eq a b = .ok (decide (a = b)) := by
  have hz : ∀ a b : List Nat, a.length = b.length → ((a.zip b).all (fun p => p.1 == p.2)) = decide (a = b) := by
    intro a
    induction a with
    | nil => intro b hb; cases b <;> simp_all
    | cons x a ih =>
      intro b hb
      cases b with
      | nil => simp at hb
      | cons y b =>
        have := ih b (by simpa using hb)
        simp only [List.zip_cons_cons, List.all_cons, this, List.cons.injEq]
        by_cases hxy : x = y <;> simp [hxy]
  unfold MI.eq
  rw [if_neg (by simpa using h), hz a b h]

/-- **C105** Comparison of multi-indices and tuples: equal iff the components are, ValueError for different lengths unless both are tuples;
equal objects have equal hashes. -/
theorem C105_equality (hash : List Nat → Int) (a b : Obj) :
    (a.comps.length = b.comps.length ∨ (a.isTuple = true ∧ b.isTuple = true) → keyEq a b = .ok (decide (a.comps = b.comps))) ∧
    (a.comps.length ≠ b.comps.length → (a.isTuple = false ∨ b.isTuple = false) → keyEq a b = .error .value) ∧
    (keyEq a b = .ok true → hash a.comps = hash b.comps) := by
  have h1 : a.comps.length = b.comps.length ∨ (a.isTuple = true ∧ b.isTuple = true) → keyEq a b = .ok (decide (a.comps = b.comps)) := by
    rintro (h | ⟨ha, hb⟩)
    · unfold keyEq
      rw [mi_eq_ok h, mi_eq_ok h.symm]
      cases a.isTuple <;> cases b.isTuple <;> simp [eq_comm]
    · simp [keyEq, ha, hb]
  have h2 : a.comps.length ≠ b.comps.length → (a.isTuple = false ∨ b.isTuple = false) → keyEq a b = .error .value := by
    intro h ht
    unfold keyEq MI.eq
    rw [if_pos h, if_pos h.symm]
    rcases ht with ht | ht
    · simp [ht]
    · cases a.isTuple <;> simp [ht]
  refine ⟨h1, h2, fun h => ?_⟩
  by_cases hc : a.comps.length = b.comps.length ∨ (a.isTuple = true ∧ b.isTuple = true)
  · rw [h1 hc] at h
    have : a.comps = b.comps := by simpa using h
    rw [this]
  · push Not at hc
    rw [h2 hc.1 (by by_cases ha : a.isTuple = true; exacts [.inr (by simpa using hc.2 ha), .inl (by simpa using ha)])] at h
    cases h

theorem hit_eq {hash : List Nat → Int} {mem : Mem} {k : Nat} {e : Entry V} (hi : e.hash = hash (mem e.key).comps)
    (hc : Comparable hash (mem e.key) (mem k)) : hit mem (hashOf hash mem k) k e = .ok (decide ((mem e.key).comps = (mem k).comps)) := by
  unfold hit hashOf
  by_cases h : e.hash = hash (mem k).comps
  · rw [if_pos h]
    by_cases hk : e.key = k
    · simp [hk]
    · rw [if_neg hk]
      exact (C105_equality hash _ _).1 (hc (hi ▸ h))
  · rw [if_neg h]
    have : (mem e.key).comps ≠ (mem k).comps := fun h' => h (by rw [hi, h'])
    simp [this]

theorem find_eq {hash : List Nat → Int} {mem : Mem} {k : Nat} {d : List (Entry V)} (hi : Intact hash mem d)
    (hc : ∀ e ∈ d, Comparable hash (mem e.key) (mem k)) : find mem (hashOf hash mem k) k d = .ok (L2G.dget? (items mem d) (mem k).comps) := by
  induction d with
  | nil => rfl
  | cons e d ih =>
    rw [find, hit_eq (hi e (by simp)) (hc e (by simp)), Py.bind_ok]
    simp only [items, List.map_cons, L2G.dget?, decide_eq_true_eq]
    by_cases h : (mem e.key).comps = (mem k).comps
    · rw [if_pos h, if_pos h]; rfl
    · rw [if_neg h, if_neg h]
      exact ih (fun e he => hi e (by simp [he])) (fun e he => hc e (by simp [he]))

/-- **C105** Lookups in a dictionary whose keys were not changed see the components only: they agree with the association lists used in the model of
the local-to-global maps, whatever the hash function is. -/
theorem C105_lookup (hash : List Nat → Int) (mem : Mem) (d : List (Entry V)) (k : Nat) (hi : Intact hash mem d)
    (hc : ∀ e ∈ d, Comparable hash (mem e.key) (mem k)) :
    get hash mem d k = orKeyError (L2G.dget? (items mem d) (mem k).comps) ∧
    contains hash mem d k = .ok (L2G.dget? (items mem d) (mem k).comps).isSome := by
  unfold get contains
  rw [find_eq hi hc]
  simp only [Py.bind_ok, Py.pure_eq, and_true]
  cases L2G.dget? (items mem d) (mem k).comps <;> rfl

/-- **C105** Assignments agree with those of association lists, and keep the stored hashes right. An assignment to an existing key keeps the old key object. -/
theorem C105_assign (hash : List Nat → Int) (mem : Mem) (d : List (Entry V)) (k : Nat) (v : V) (hi : Intact hash mem d)
    (hc : ∀ e ∈ d, Comparable hash (mem e.key) (mem k)) :
    ∃ d', set hash mem d k v = .ok d' ∧ Intact hash mem d' ∧ items mem d' = L2G.dset (items mem d) (mem k).comps v ∧
      (d'.map Entry.key = d.map Entry.key ∨ d'.map Entry.key = d.map Entry.key ++ [k]) := by
  unfold set
  induction d with
  | nil => exact ⟨_, rfl, by simp [Intact, hashOf], rfl, .inr rfl⟩
  | cons e d ih =>
    rw [setH, hit_eq (hi e (by simp)) (hc e (by simp)), Py.bind_ok]
    by_cases h : (mem e.key).comps = (mem k).comps
    · simp only [h, decide_true, if_true, Py.pure_eq]
      refine ⟨_, rfl, ?_, ?_, .inl rfl⟩
      · intro e' he'
        rcases List.mem_cons.1 he' with rfl | he'
        · exact hi e (by simp)
        · exact hi e' (by simp [he'])
      · simp [items, L2G.dset, h]
    · obtain ⟨d', h1, h2, h3, h4⟩ := ih (fun e he => hi e (by simp [he])) (fun e he => hc e (by simp [he]))
      simp only [h, decide_false, Bool.false_eq_true, if_false, h1, Py.bind_ok, Py.pure_eq]
      refine ⟨_, rfl, ?_, ?_, ?_⟩
      · intro e' he'
        rcases List.mem_cons.1 he' with rfl | he'
        · exact hi _ (by simp)
        · exact h2 e' he'
      · simp only [items, List.map_cons, L2G.dset, if_neg h] at h3 ⊢
        rw [h3]
      · rcases h4 with h4 | h4
        · exact .inl (by simp [h4])
        · exact .inr (by simp [h4])

theorem dget_dset (d : List (List Nat × V)) (a c : List Nat) (v : V) :
    L2G.dget? (L2G.dset d a v) c = if a = c then some v else L2G.dget? d c := by
  induction d with
  | nil => simp [L2G.dset, L2G.dget?]
  | cons p d ih =>
    obtain ⟨b, w⟩ := p
    simp only [L2G.dset]
    by_cases hb : b = a
    · subst hb
      simp only [if_true, L2G.dget?]
      by_cases h : b = c <;> simp [h]
    · simp only [if_neg hb, L2G.dget?, ih]
      by_cases hc : b = c
      · have : a ≠ c := fun h => hb (hc.trans h.symm)
        simp [hc, this]
      · simp [hc]

theorem fill_spec {hash : List Nat → Int} {mem : Mem} (n : Nat) (l : List (Nat × V)) : ∀ d : List (Entry V), Intact hash mem d →
    (∀ e ∈ d, (mem e.key).comps.length = n) → (∀ p ∈ l, (mem p.1).comps.length = n) →
    ∃ d', fill hash mem l d = .ok d' ∧ Intact hash mem d' ∧ (∀ e ∈ d', (mem e.key).comps.length = n) ∧
      items mem d' = l.foldl (fun s p => L2G.dset s (mem p.1).comps p.2) (items mem d) := by
  induction l with
  | nil => exact fun d h1 h2 _ => ⟨d, rfl, h1, h2, rfl⟩
  | cons p l ih =>
    obtain ⟨k, v⟩ := p
    intro d h1 h2 h3
    have hk : (mem k).comps.length = n := h3 (k, v) (by simp)
    obtain ⟨d', g1, g2, g3, g4⟩ := C105_assign hash mem d k v h1 (fun e he _ => .inl ((h2 e he).trans hk.symm))
    have g5 : ∀ e ∈ d', (mem e.key).comps.length = n := by
      intro e he
      have : e.key ∈ d'.map Entry.key := List.mem_map_of_mem he
      have hd : ∀ x ∈ d.map Entry.key, (mem x).comps.length = n := by
        intro x hx
        obtain ⟨e', he', rfl⟩ := List.mem_map.1 hx
        exact h2 e' he'
      rcases g4 with g4 | g4
      · exact hd _ (g4 ▸ this)
      · rw [g4] at this
        rcases List.mem_append.1 this with h | h
        · exact hd _ h
        · rw [List.mem_singleton.1 h]; exact hk
    obtain ⟨d'', f1, f2, f3, f4⟩ := ih d' g2 g5 (fun p hp => h3 p (by simp [hp]))
    refine ⟨d'', ?_, f2, f3, ?_⟩
    · rw [fill, g1, Py.bind_ok, f1]
    · rw [f4, g3]; rfl

theorem dget_foldl (mem : Mem) (l : List (Nat × V)) (s : List (List Nat × V)) (c : List Nat) :
    L2G.dget? (l.foldl (fun s p => L2G.dset s (mem p.1).comps p.2) s) c = (lastValue mem l c).or (L2G.dget? s c) := by
  induction l generalizing s with
  | nil => rfl
  | cons p l ih =>
    rw [List.foldl_cons, ih, dget_dset]
    unfold lastValue
    rw [List.reverse_cons, List.find?_append]
    cases h : l.reverse.find? fun p => decide ((mem p.1).comps = c) with
    | some q => simp
    | none =>
      by_cases hp : (mem p.1).comps = c
      · simp [hp]
      · simp [hp]

/-- **C105** After any assignments `d[k] = v` with keys of the same dimension (multi-indices or tuples), `d[k]` is the last value that was assigned to a key with
the same components as `k`, and a KeyError if there is none; `k in d` tells which. This holds for every hash function. -/
theorem C105_history (hash : List Nat → Int) (mem : Mem) (n : Nat) (l : List (Nat × V)) (hl : ∀ p ∈ l, (mem p.1).comps.length = n)
    (k : Nat) (hk : (mem k).comps.length = n) :
    ∃ d, fill hash mem l [] = .ok d ∧ get hash mem d k = orKeyError (lastValue mem l (mem k).comps) ∧
      contains hash mem d k = .ok (lastValue mem l (mem k).comps).isSome := by
  obtain ⟨d, h1, h2, h3, h4⟩ := fill_spec (hash := hash) n l [] (by simp [Intact]) (by simp) hl
  refine ⟨d, h1, ?_⟩
  have h5 := dget_foldl mem l [] (mem k).comps
  have h6 : L2G.dget? (items mem d) (mem k).comps = lastValue mem l (mem k).comps := by
    rw [h4]
    refine h5.trans ?_
    simp [L2G.dget?]
  rw [← h6]
  exact C105_lookup hash mem d k h2 (fun e he _ => .inl ((h3 e he).trans hk.symm))

/-- **C105** The map `tau` of a space of piecewise polynomials may be called with multi-indices or tuples: it returns the last index assigned to the components,
-1 if there is none. -/
theorem C105_tau (hash : List Nat → Int) (mem : Mem) (n : Nat) (l : List (Nat × Int)) (hl : ∀ p ∈ l, (mem p.1).comps.length = n)
    (k : Nat) (hk : (mem k).comps.length = n) :
    ∃ d, fill hash mem l [] = .ok d ∧ tau hash mem d k = .ok ((lastValue mem l (mem k).comps).getD (-1)) := by
  obtain ⟨d, h1, h2, h3⟩ := C105_history hash mem n l hl k hk
  refine ⟨d, h1, ?_⟩
  unfold tau
  rw [h3, Py.bind_ok, h2]
  cases lastValue mem l (mem k).comps <;> rfl

theorem assign_ok {mem mem' : Mem} {k : Nat} {i c : Int} (h : assign mem k i c = .ok mem') :
    (mem k).isTuple = false ∧ ∃ a, mem' = Function.update mem k ⟨false, a⟩ ∧ MI.setItem (mem k).comps i c = .ok a := by
  unfold assign at h
  cases ht : (mem k).isTuple with
  | true => rw [ht] at h; cases h
  | false =>
    refine ⟨rfl, ?_⟩
    rw [ht] at h
    cases hs : MI.setItem (mem k).comps i c with
    | error e => rw [hs] at h; cases h
    | ok a =>
      rw [hs] at h
      exact ⟨a, (Except.ok.inj h).symm, rfl⟩

/-- **C105** Dictionaries whose keys are tuples, such as the local-to-global maps, are not affected by assignments to components of multi-indices: the items stay the
same, and lookups keep following the components of the sought key. -/
theorem C105_tuple_keys (hash : List Nat → Int) (mem mem' : Mem) (d : List (Entry V)) (a : Nat) (i c : Int) (hi : Intact hash mem d)
    (ht : ∀ e ∈ d, (mem e.key).isTuple = true) (h : assign mem a i c = .ok mem') (k : Nat)
    (hc : ∀ e ∈ d, Comparable hash (mem' e.key) (mem' k)) :
    items mem' d = items mem d ∧ Intact hash mem' d ∧ get hash mem' d k = orKeyError (L2G.dget? (items mem d) (mem' k).comps) := by
  obtain ⟨h1, b, rfl, -⟩ := assign_ok h
  have hne : ∀ e ∈ d, e.key ≠ a := fun e he hk => by
    have := ht e he
    rw [hk, h1] at this
    cases this
  have h2 : items (Function.update mem a ⟨false, b⟩) d = items mem d := by
    refine List.map_congr_left fun e he => ?_
    rw [Function.update_of_ne (hne e he)]
  have h3 : Intact hash (Function.update mem a ⟨false, b⟩) d := fun e he => by
    rw [Function.update_of_ne (hne e he)]
    exact hi e he
  exact ⟨h2, h3, h2 ▸ (C105_lookup hash _ d k h3 hc).1⟩

/-- **C105** If a multi-index is changed while it is a key, its entry is lost: with another object, of the same dimension, neither the old components nor the new ones find
it any more (the latter unless the hashes of the old and new components collide), although the dictionary still holds it. -/
theorem C105_changed_key (hash : List Nat → Int) (mem mem' : Mem) (a : Nat) (v : V) (i c : Int) (d : List (Entry V))
    (hd : set hash mem [] a v = .ok d) (h : assign mem a i c = .ok mem') (hne : (mem' a).comps ≠ (mem a).comps) :
    items mem' d = [((mem' a).comps, v)] ∧
    (∀ k, k ≠ a → (mem' k).comps = (mem a).comps → get hash mem' d k = .error .key) ∧
    (∀ k, k ≠ a → (mem' k).comps = (mem' a).comps → hash (mem' a).comps ≠ hash (mem a).comps → get hash mem' d k = .error .key) := by
  obtain ⟨-, b, rfl, hs⟩ := assign_ok h
  have hd' : d = [⟨hash (mem a).comps, a, v⟩] := (Except.ok.inj hd).symm
  subst hd'
  have hb : b.length = (mem a).comps.length := by
    unfold MI.setItem pySet at hs
    split at hs
    · cases hs
    · split_ifs at hs <;> (cases hs; simp)
  refine ⟨rfl, fun k hk hc => ?_, fun k hk hc hh => ?_⟩
  · have he : keyEq (Function.update mem a ⟨false, b⟩ a) (Function.update mem a ⟨false, b⟩ k) = .ok false := by
      rw [(C105_equality hash _ _).1 (.inl (by rw [hc]; simpa using hb))]
      rw [hc]
      simpa using hne
    simp only [get, find, hit, hashOf, hc, if_true, Ne.symm hk, if_false, he, Py.bind_ok, Py.pure_eq, Bool.false_eq_true]
    rfl
  · simp only [get, find, hit, hashOf, hc, Ne.symm hh, if_false, Py.bind_ok, Py.pure_eq, Bool.false_eq_true]
    rfl

/-- **C105** Keys of different dimensions: the lookup with a multi-index raises a ValueError if a key of another dimension happens to have the same hash. -/
theorem C105_collision (hash : List Nat → Int) (mem : Mem) (a k : Nat) (v : V) (d : List (Entry V)) (hd : set hash mem [] a v = .ok d)
    (hl : (mem a).comps.length ≠ (mem k).comps.length) (ht : (mem k).isTuple = false) :
    (hash (mem a).comps = hash (mem k).comps → get hash mem d k = .error .value) ∧
    (hash (mem a).comps ≠ hash (mem k).comps → get hash mem d k = .error .key) := by
  have hd' : d = [⟨hash (mem a).comps, a, v⟩] := (Except.ok.inj hd).symm
  subst hd'
  have hak : a ≠ k := fun h => hl (by rw [h])
  refine ⟨fun h => ?_, fun h => ?_⟩
  · simp only [get, find, hit, hashOf, h, if_true, hak, if_false, (C105_equality hash _ _).2.1 hl (.inr ht), Py.bind_error]
  · simp only [get, find, hit, hashOf, h, if_false, Py.bind_ok, Py.pure_eq, Bool.false_eq_true]
    rfl

/-! ## Examples -/

/-- Three objects: the tuple (0, 1), and multi-indices with the components (1, 0) and (0, 1). -/
def exMem : Mem := fun k => if k = 0 then ⟨true, [0, 1]⟩ else if k = 1 then ⟨false, [1, 0]⟩ else ⟨false, [0, 1]⟩

/-- Assignments to keys of dimension two; the key 2 is another object than the key 0, with the same components. -/
example : (∀ p ∈ [(0, 7), (1, 8), (2, 9)], (exMem p.1).comps.length = 2) ∧ (exMem 0).comps.length = 2 ∧
    lastValue exMem [(0, (7 : Int)), (1, 8), (2, 9)] (exMem 0).comps = some 9 := by decide

/-- A hash function with nothing but collisions. -/
example : ∃ d, fill (fun _ => 0) exMem [(0, (7 : Int)), (1, 8), (2, 9)] [] = .ok d ∧ get (fun _ => 0) exMem d 0 = .ok 9 := by
  obtain ⟨d, h1, h2, -⟩ := C105_history (fun _ => 0) exMem 2 [(0, (7 : Int)), (1, 8), (2, 9)] (by decide) 0 rfl
  exact ⟨d, h1, h2⟩

/-- A key that is changed: the multi-index (1, 0) becomes (1, 5). -/
example : ∃ mem', assign exMem 1 1 5 = .ok mem' ∧ (mem' 1).comps = [1, 5] ∧ (mem' 1).comps ≠ (exMem 1).comps := by
  refine ⟨_, rfl, ?_, ?_⟩ <;> simp [exMem]

end Verif.MIDict
