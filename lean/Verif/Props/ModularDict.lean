import Verif.Model.ModularDict
import Mathlib.Data.Int.ModEq
import Mathlib.Tactic.Linarith
import Mathlib.Tactic.NormNum
/-!
# C109: integers modulo n as keys of dictionaries
-/

namespace Verif.ModDict
open Verif

variable {V : Type}

/-! ## Specification -/

/-- The last value in a list of assignments to a key that satisfies `p`. -/
def lastValue {K : Type} (p : K → Prop) [DecidablePred p] (l : List (K × V)) : Option V :=
  (l.reverse.find? fun q => decide (p q.1)).map Prod.snd

/-- What Python does with a value or a missing key. -/
def orKeyError : Option V → Py V
  | some v => .ok v
  | none => .error .key

/-- The integer that stands for a key: the integer itself or the representative of the residue class. -/
def value : Operand → Int
  | .int v => v
  | .mod a => a.i

/-! ## Lemmas -/

/-- Keys that can be compared, with equal hashes if they are equal. -/
def Consistent (S : Operand → Prop) : Prop :=
  ∀ a b, S a → S b → keyEq a b = .ok (decide (value a = value b)) ∧ (value a = value b → keyHash a = keyHash b)

/-- The entries have keys in `S` and hold their hashes. -/
def Intact (S : Operand → Prop) (d : List (Entry V)) : Prop := ∀ e ∈ d, e.hash = keyHash e.key ∧ S e.key

/-- The value in the dictionary for keys with a given integer. -/
def lookup (d : List (Entry V)) (c : Int) : Option V := (d.find? fun e => decide (value e.key = c)).map Entry.val

theorem lookup_cons (e : Entry V) (d : List (Entry V)) (c : Int) : lookup (e :: d) c = if value e.key = c then some e.val else lookup d c := by
  unfold lookup
  by_cases h : value e.key = c <;> simp [h]

theorem hit_eq {S : Operand → Prop} (hS : Consistent S) {k : Operand} (hk : S k) {e : Entry V} (he : e.hash = keyHash e.key ∧ S e.key) :
    hit k e = .ok (decide (value e.key = value k)) := by
  obtain ⟨h1, h2⟩ := hS e.key k he.2 hk
  unfold hit
  by_cases h : e.hash = keyHash k
  · rw [if_pos h, h1]
  · rw [if_neg h]
    have : value e.key ≠ value k := fun h' => h (he.1.trans (h2 h'))
    rw [decide_eq_false this]
    rfl

theorem find_eq {S : Operand → Prop} (hS : Consistent S) {k : Operand} (hk : S k) {d : List (Entry V)} (hd : Intact S d) :
    find k d = .ok (lookup d (value k)) := by
  induction d with
  | nil => rfl
  | cons e d ih =>
    rw [find, hit_eq hS hk (hd e (by simp)), lookup_cons]
    by_cases h : value e.key = value k
    · simp [h, bind, Except.bind, pure, Except.pure]
    · simpa [h, bind, Except.bind, pure, Except.pure] using ih fun e he => hd e (by simp [he])

theorem get_eq {S : Operand → Prop} (hS : Consistent S) {k : Operand} (hk : S k) {d : List (Entry V)} (hd : Intact S d) :
    get d k = orKeyError (lookup d (value k)) := by
  unfold get
  rw [find_eq hS hk hd]
  cases lookup d (value k) <;> rfl

theorem set_eq {S : Operand → Prop} (hS : Consistent S) {k : Operand} (hk : S k) (v : V) {d : List (Entry V)} (hd : Intact S d) :
    ∃ d', set k v d = .ok d' ∧ Intact S d' ∧ ∀ c, lookup d' c = if value k = c then some v else lookup d c := by
  induction d with
  | nil =>
    refine ⟨[⟨keyHash k, k, v⟩], rfl, ?_, fun c => lookup_cons _ _ c⟩
    intro e he
    rw [List.mem_singleton.1 he]
    exact ⟨rfl, hk⟩
  | cons e d ih =>
    have he := hd e (by simp)
    rw [set, hit_eq hS hk he]
    by_cases h : value e.key = value k
    · refine ⟨⟨e.hash, e.key, v⟩ :: d, by simp [h, bind, Except.bind, pure, Except.pure], ?_, fun c => ?_⟩
      · intro e' he'
        rcases List.mem_cons.1 he' with rfl | he'
        · exact he
        · exact hd e' (by simp [he'])
      · rw [lookup_cons, lookup_cons, h]
        split <;> rfl
    · obtain ⟨d', h1, h2, h3⟩ := ih fun e he => hd e (by simp [he])
      refine ⟨e :: d', by simp [h, h1, bind, Except.bind, pure, Except.pure], ?_, fun c => ?_⟩
      · intro e' he'
        rcases List.mem_cons.1 he' with rfl | he'
        · exact he
        · exact h2 e' he'
      · rw [lookup_cons, lookup_cons, h3]
        by_cases h4 : value e.key = c
        · rw [if_pos h4, if_neg fun h5 => h (h4.trans h5.symm), if_pos h4]
        · rw [if_neg h4, if_neg h4]

theorem lastValue_cons {K : Type} (p : K → Prop) [DecidablePred p] (k : K) (v : V) (l : List (K × V)) :
    lastValue p ((k, v) :: l) = (lastValue p l).or (if p k then some v else none) := by
  unfold lastValue
  rw [List.reverse_cons, List.find?_append]
  cases h : l.reverse.find? fun q => decide (p q.1) with
  | some q => simp
  | none => by_cases hp : p k <;> simp [hp]

theorem fill_eq {S : Operand → Prop} (hS : Consistent S) (l : List (Operand × V)) : ∀ {d : List (Entry V)}, Intact S d → (∀ p ∈ l, S p.1) →
    ∃ d', fill l d = .ok d' ∧ Intact S d' ∧ ∀ c, lookup d' c = (lastValue (fun k => value k = c) l).or (lookup d c) := by
  induction l with
  | nil => exact fun {d} hd _ => ⟨d, rfl, hd, fun c => rfl⟩
  | cons p l ih =>
    obtain ⟨k, v⟩ := p
    intro d hd hl
    obtain ⟨d', h1, h2, h3⟩ := set_eq hS (hl (k, v) (by simp)) v hd
    obtain ⟨d'', g1, g2, g3⟩ := ih h2 fun p hp => hl p (by simp [hp])
    refine ⟨d'', ?_, g2, fun c => ?_⟩
    · rw [fill, h1]
      exact g1
    · rw [g3, h3, lastValue_cons]
      cases lastValue (fun k => value k = c) l with
      | some w => rfl
      | none => by_cases h : value k = c <;> simp [h]

theorem beq_dec (x y : Int) : (x == y) = decide (x = y) := by
  by_cases h : x = y <;> simp [h]

theorem consistent_mod (n : Int) : Consistent fun k => ∃ a : IntMod, k = .mod a ∧ a.n = n := by
  rintro _ _ ⟨a, rfl, ha⟩ ⟨b, rfl, hb⟩
  refine ⟨?_, fun h => ?_⟩
  · simp [keyEq, IntMod.eq, ha, hb, value, beq_dec]; rfl
  · have h' : a.i = b.i := h
    simp [keyHash, modHash, h']

theorem hash_small {a : IntMod} (h : |a.i| < 2 ^ 61 - 1) : modHash a = intHash a.i := by
  obtain ⟨h1, h2⟩ := abs_lt.1 h
  unfold modHash intHash
  rw [if_pos (by constructor <;> omega)]
  have : Int.tmod a.i (2 ^ 61 - 1) = a.i := by
    rcases le_or_gt 0 a.i with h0 | h0
    · exact Int.tmod_eq_of_lt h0 h2
    · have h3 := Int.neg_tmod (-a.i) (2 ^ 61 - 1)
      have h4 : Int.tmod (-a.i) (2 ^ 61 - 1) = -a.i := Int.tmod_eq_of_lt (by omega) (by omega)
      rw [neg_neg, h4, neg_neg] at h3
      exact h3
  rw [this]

theorem consistent_mixed (n : Int) : Consistent fun k => ∀ a : IntMod, k = .mod a → a.n = n ∧ |a.i| < 2 ^ 61 - 1 := by
  intro a b ha hb
  have hv : ∀ k : Operand, (∀ a : IntMod, k = .mod a → a.n = n ∧ |a.i| < 2 ^ 61 - 1) → keyHash k = intHash (value k) := by
    intro k hk
    cases k with
    | int v => rfl
    | mod a => exact hash_small (hk a rfl).2
  refine ⟨?_, fun h => by rw [hv a ha, hv b hb, h]⟩
  cases a with
  | int v =>
    cases b with
    | int w => rfl
    | mod b => simp [keyEq, IntMod.eq, value, beq_dec, eq_comm]; rfl
  | mod a =>
    cases b with
    | int w => simp [keyEq, IntMod.eq, value, beq_dec]; rfl
    | mod b => simp [keyEq, IntMod.eq, (ha a rfl).1, (hb b rfl).1, value, beq_dec]; rfl

/-! ## Properties -/

/-- **C109** A dictionary whose keys are integers modulo `n`: after any assignments `d[IntegerModuloN(y, n)] = v` the value of `d[IntegerModuloN(x, n)]` is the last one that was assigned
for a `y` congruent to `x` modulo `n`; a KeyError is raised if there is none. For all moduli (also negative ones) and integers of any size. -/
theorem C109_residues (n : Int) (hn : n ≠ 0) (l : List (Int × V)) (x : Int) :
    ∃ d, fillMod n l [] = .ok d ∧ getMod n d x = orKeyError (lastValue (fun y => y ≡ x [ZMOD n]) l) := by
  have hS := consistent_mod n
  have key : ∀ y, IntMod.mk? y n = .ok (IntMod.red y n) := fun y => by unfold IntMod.mk?; rw [if_neg hn]
  have h1 : ∀ (l : List (Int × V)) d, fillMod n l d = fill (l.map fun p => (Operand.mod (IntMod.red p.1 n), p.2)) d := by
    intro l
    induction l with
    | nil => intro d; rfl
    | cons p l ih =>
      obtain ⟨y, v⟩ := p
      intro d
      rw [fillMod, key]
      simp only [List.map_cons, fill, bind, Except.bind]
      cases set (Operand.mod (IntMod.red y n)) v d with
      | error e => rfl
      | ok d => exact ih d
  obtain ⟨d, h2, h3, h4⟩ := fill_eq hS (l.map fun p => (Operand.mod (IntMod.red p.1 n), p.2)) (d := []) (by simp [Intact]) (by
    intro p hp
    obtain ⟨q, -, rfl⟩ := List.mem_map.1 hp
    exact ⟨_, rfl, rfl⟩)
  refine ⟨d, (h1 l []).trans h2, ?_⟩
  unfold getMod
  rw [key]
  have h5 := get_eq hS (k := .mod (IntMod.red x n)) ⟨_, rfl, rfl⟩ h3
  refine h5.trans ?_
  rw [h4]
  congr 1
  have h6 : ∀ y, (value (.mod (IntMod.red y n)) = value (.mod (IntMod.red x n))) ↔ y ≡ x [ZMOD n] := by
    intro y
    have : ∀ z, Int.fmod z n = z - n * Int.fdiv z n := fun z => by have := Int.mul_fdiv_add_fmod z n; linarith
    constructor
    · intro h
      have h' : Int.fmod y n = Int.fmod x n := h
      refine (Int.modEq_iff_dvd).2 ⟨Int.fdiv x n - Int.fdiv y n, ?_⟩
      rw [this, this] at h'
      linarith
    · intro h
      obtain ⟨c, hc⟩ := Int.modEq_iff_dvd.1 h
      have : x = y + n * c := by linarith
      show Int.fmod y n = Int.fmod x n
      rw [this, Int.add_mul_fmod_self_left]
  unfold lastValue lookup
  simp only [List.find?_nil, Option.map_none, Option.or_none, ← List.map_reverse, List.find?_map, Option.map_map, Function.comp_def, h6]

/-- **C109** A dictionary whose keys are integers modulo one `n`, with representatives below `2^61 - 1`, and plain integers of any size: every key stands for its representative. -/
theorem C109_mixed (n : Int) (l : List (Operand × V)) (hl : ∀ p ∈ l, ∀ a : IntMod, p.1 = .mod a → a.n = n ∧ |a.i| < 2 ^ 61 - 1)
    (k : Operand) (hk : ∀ a : IntMod, k = .mod a → a.n = n ∧ |a.i| < 2 ^ 61 - 1) :
    ∃ d, fill l [] = .ok d ∧ get d k = orKeyError (lastValue (fun k' => value k' = value k) l) := by
  have hS := consistent_mixed n
  obtain ⟨d, h2, h3, h4⟩ := fill_eq hS l (d := []) (by simp [Intact]) hl
  refine ⟨d, h2, ?_⟩
  rw [get_eq hS hk h3, h4]
  simp [lookup]

/-- **C109** Beyond this bound hashes and equality do not agree: an integer modulo `n` whose representative has 62 or 63 bits is equal to that plain integer, but is not found in a
dictionary that has it as a key, nor the other way round. -/
theorem C109_large (a : IntMod) (h1 : 2 ^ 61 - 1 ≤ a.i) (h2 : a.i < 2 ^ 63) (v : V) :
    keyEq (.mod a) (.int a.i) = .ok true ∧
    (∃ d, set (.int a.i) v [] = .ok d ∧ get d (.mod a) = .error .key) ∧
    ∃ d, set (.mod a) v [] = .ok d ∧ get d (.int a.i) = .error .key := by
  have hm : modHash a = a.i := by
    unfold modHash
    rw [if_pos (by constructor <;> omega), if_neg (by omega)]
  have hi : intHash a.i ≠ a.i := by
    unfold intHash
    have := Int.tmod_lt_of_pos a.i (b := 2 ^ 61 - 1) (by norm_num)
    have h0 : 0 ≤ Int.tmod a.i (2 ^ 61 - 1) := Int.tmod_nonneg _ (by omega)
    simp only
    split <;> omega
  refine ⟨by simp [keyEq, IntMod.eq], ⟨_, rfl, ?_⟩, ⟨_, rfl, ?_⟩⟩
  · simp [get, find, hit, keyHash, hm, hi, bind, Except.bind, pure, Except.pure, throw, throwThe, MonadExceptOf.throw]
  · simp [get, find, hit, keyHash, hm, Ne.symm hi, bind, Except.bind, pure, Except.pure, throw, throwThe, MonadExceptOf.throw]

/-- **C109** Integers with different moduli in one dictionary: a lookup raises a ValueError if the representatives agree, and a KeyError otherwise (representatives from 0 to `2^63 - 1`). -/
theorem C109_moduli (a b : IntMod) (hn : a.n ≠ b.n) (v : V) :
    ∃ d, set (.mod a) v [] = .ok d ∧ (a.i = b.i → get d (.mod b) = .error .value) ∧
      (a.i ≠ b.i → 0 ≤ a.i → a.i < 2 ^ 63 → 0 ≤ b.i → b.i < 2 ^ 63 → get d (.mod b) = .error .key) := by
  refine ⟨_, rfl, fun h => ?_, fun h h1 h2 h3 h4 => ?_⟩
  · simp [get, find, hit, keyHash, modHash, h, keyEq, IntMod.eq, hn, bind, Except.bind]
  · have hm : ∀ a : IntMod, 0 ≤ a.i → a.i < 2 ^ 63 → modHash a = a.i := by
      intro a h1 h2
      unfold modHash
      rw [if_pos (by constructor <;> omega), if_neg (by omega)]
    simp [get, find, hit, keyHash, hm a h1 h2, hm b h3 h4, h, bind, Except.bind, pure, Except.pure, throw, throwThe, MonadExceptOf.throw]

/-! ## Examples -/

/-- `d = {}; d[IntegerModuloN(1, 3)] = 10; d[IntegerModuloN(2, 3)] = 20; d[IntegerModuloN(-2, 3)] = 30; d[IntegerModuloN(7, 3)]` is 30. -/
example : lastValue (fun y => y ≡ 7 [ZMOD 3]) [((1 : Int), 10), (2, 20), (-2, 30)] = some 30 := by decide

/-- Keys for `C109_mixed`. -/
example : ∀ p ∈ [(Operand.mod ⟨1, 3⟩, 10), (.int (2 ^ 70), 20)], ∀ a : IntMod, p.1 = .mod a → a.n = 3 ∧ |a.i| < 2 ^ 61 - 1 := by
  intro p hp a ha
  simp only [List.mem_cons, List.not_mem_nil, or_false] at hp
  rcases hp with rfl | rfl
  · cases ha; norm_num
  · cases ha

/-- `IntegerModuloN(2**61 - 1, 2**62)` meets the hypotheses of `C109_large`. -/
example : (2 : Int) ^ 61 - 1 ≤ (IntMod.red (2 ^ 61 - 1) (2 ^ 62)).i ∧ (IntMod.red (2 ^ 61 - 1) (2 ^ 62)).i < 2 ^ 63 := by decide

/-- Two moduli: `IntegerModuloN(4, 3)` and `IntegerModuloN(1, 5)` have the same representative. -/
example : (IntMod.red 4 3).n ≠ (IntMod.red 1 5).n ∧ (IntMod.red 4 3).i = (IntMod.red 1 5).i := by decide

end Verif.ModDict
