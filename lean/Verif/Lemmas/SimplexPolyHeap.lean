import Verif.Lemmas.PolyHeap
import Verif.Spec.SimplexPolyHeap
/-!
# Lemmas: polynomials on simplices that share arrays of vertices
-/

namespace Verif.SPolyHeap
open Verif Verif.Poly Verif.Simplex Verif.SPoly Verif.Spec.SPolyValues
open Verif.PolyHeap (Matches get_append_some)

variable {K V : Type} [Field K] [DecidableEq K] [AddCommGroup V] [Module K V] {m : Nat}

/-! ## Results have the vertices of the first operand -/

/-- If the computation returns a polynomial then it has vertices `v`. -/
def Keeps (v : Vertices K m m) (x : Py (SObj K V m)) : Prop := ∀ p, x = .ok p → p.vertices = v

omit [AddCommGroup V] [Module K V] in
theorem Keeps.bind {α : Type} {v : Vertices K m m} {x : Py α} {f : α → Py (SObj K V m)} (h : ∀ a, x = .ok a → Keeps v (f a)) : Keeps v (x >>= f) := by
  intro p hp
  cases x with
  | error e => cases hp
  | ok a => exact h a rfl p hp

omit [AddCommGroup V] [Module K V] in
theorem Keeps.error (v : Vertices K m m) (e : PyErr) : Keeps v (.error e : Py (SObj K V m)) := by intro p h; cases h

omit [AddCommGroup V] [Module K V] in
theorem Keeps.new (b : Basis) (c : List V) (v : Vertices K m m) (r : Option Nat) : Keeps v (SObj.new b c v r) := by
  unfold SObj.new
  refine Keeps.bind (fun _ _ => Keeps.bind (fun _ _ => ?_))
  intro p hp
  cases hp
  rfl

theorem keeps_elevate (p : SObj K V m) (s : Nat) : Keeps p.vertices (p.degreeElevate s) := by
  unfold SObj.degreeElevate
  refine Keeps.bind (fun _ _ => ?_)
  split
  · exact Keeps.new _ _ _ _
  · exact Keeps.bind (fun _ _ => Keeps.new _ _ _ _)

omit [AddCommGroup V] [Module K V] in
theorem keeps_same (op : V → V → V) (p q : SObj K V m) : Keeps p.vertices (SPoly.combineSame op p q) := by
  unfold SPoly.combineSame
  refine Keeps.bind (fun _ _ => ?_)
  split
  · exact Keeps.new _ _ _ _
  · exact Keeps.error _ _

theorem keeps_combine (op : V → V → V) (p q : SObj K V m) : Keeps p.vertices (SPoly.combine op p q) := by
  unfold SPoly.combine
  refine Keeps.bind (fun _ _ => ?_)
  split
  · exact keeps_same _ _ _
  · split
    · exact Keeps.bind (fun _ _ => keeps_same _ _ _)
    · refine Keeps.bind (fun p' hp' => ?_)
      rw [← keeps_elevate p _ p' hp']
      exact keeps_same _ _ _

theorem keeps_smul (c : K) (p : SObj K V m) : Keeps p.vertices (p.smul c) := Keeps.new _ _ _ _

theorem keeps_term (p : SObj K V m) (i k : Fin m) : Keeps p.vertices (derivativeTerm p i k) := by
  unfold derivativeTerm
  refine Keeps.bind (fun _ _ => Keeps.bind (fun d hd => ?_))
  rw [← Keeps.new _ _ _ _ d hd]
  exact keeps_smul _ _

theorem keeps_derivative (p : SObj K V m) (i : Nat) : Keeps p.vertices (p.partialDerivative i) := by
  unfold SObj.partialDerivative
  split
  · rename_i h
    split
    · exact Keeps.new _ _ _ _
    · refine Keeps.bind (fun d hd => ?_)
      have hd' := keeps_term _ _ _ d hd
      revert d
      intro d hd
      have key : ∀ (l : List (Fin m)) (d : SObj K V m), d.vertices = p.vertices →
          Keeps p.vertices (l.foldlM (fun d k => do
            let t ← derivativeTerm p ⟨i, h⟩ k
            d.add t) d) := by
        intro l
        induction l with
        | nil => intro d hd q hq; cases hq; exact hd
        | cons k l ih =>
          intro d hd
          rw [List.foldlM_cons]
          refine Keeps.bind (fun s hs => ih s ?_)
          have : Keeps p.vertices (do
              let t ← derivativeTerm p ⟨i, h⟩ k
              d.add t) := by
            refine Keeps.bind (fun t _ => ?_)
            rw [← hd]
            exact keeps_combine _ _ _
          exact this s hs
      exact fun hd' => key _ d hd'
  · exact Keeps.error _ _

theorem keeps_mul (p q : SObj K K m) : Keeps p.vertices (p.mul q) := by
  unfold SObj.mul mulLagrangeSimplex mulBernsteinSimplex
  split
  · exact Keeps.bind (fun _ _ => Keeps.bind (fun _ _ => Keeps.new _ _ _ _))
  · exact Keeps.bind (fun _ _ => Keeps.bind (fun _ _ => Keeps.new _ _ _ _))

theorem keeps_pow (p : SObj K K m) (k : Nat) : Keeps p.vertices (p.powNat k) := by
  unfold SObj.powNat
  split
  · match k with
    | 0 => unfold powNatLagrange; exact Keeps.new _ _ _ _
    | 1 => unfold powNatLagrange; exact Keeps.new _ _ _ _
    | k + 2 => unfold powNatLagrange; exact Keeps.bind (fun _ _ => keeps_mul _ _)
  · exact Keeps.bind (fun _ _ => Keeps.new _ _ _ _)

theorem keeps_powMulti {n : Nat} (p : SObj K (Fin n → K) m) (exp : List Nat) : Keeps p.vertices (p.powMulti exp) := by
  unfold SObj.powMulti
  split
  · exact Keeps.bind (fun _ _ => Keeps.bind (fun _ _ => Keeps.bind (fun _ _ => Keeps.new _ _ _ _)))
  · exact Keeps.bind (fun _ _ => Keeps.new _ _ _ _)

/-! ## Refinement -/

/-- The objects represent the polynomials, and refer only to arrays that the program has used. -/
structure Rel (used : Nat → Prop) (arrays : List (Vertices K m m)) (polys : List (Ref K V m)) (values : List (SObj K V m)) : Prop where
  objs : Matches (fun (p : Ref K V m) (o : SObj K V m) => arrays[p.addr]? = some o.vertices ∧ p.poly = o.poly ∧ p.phi = o.phi) polys values
  inUse : ∀ p ∈ polys, used p.addr

omit [Field K] [DecidableEq K] [AddCommGroup V] [Module K V] in
theorem Rel.view {used : Nat → Prop} {arrays : List (Vertices K m m)} {polys : List (Ref K V m)} {values : List (SObj K V m)}
    (r : Rel used arrays polys values) (a : Nat) : SPolyHeap.view arrays polys a = get values a := by
  unfold SPolyHeap.view Verif.Spec.SPolyValues.get
  rcases r.objs a with ⟨h1, h2⟩ | ⟨p, o, h1, h2, h3, h4, h5⟩
  · rw [h1, h2]
  · rw [h1, h2]
    simp only [h3, h4, h5]

omit [Field K] [DecidableEq K] [AddCommGroup V] [Module K V] in
theorem Rel.addr {used : Nat → Prop} {arrays : List (Vertices K m m)} {polys : List (Ref K V m)} {values : List (SObj K V m)}
    (r : Rel used arrays polys values) {a : Nat} {o : SObj K V m} (h : get values a = .ok o) :
    ∃ l, addrOf polys a = some l ∧ arrays[l]? = some o.vertices ∧ used l := by
  unfold Verif.Spec.SPolyValues.get at h
  rcases r.objs a with ⟨_, h2⟩ | ⟨p, o', h1, h2, h3, _, _⟩
  · rw [h2] at h; cases h
  · rw [h2] at h
    cases h
    exact ⟨p.addr, by unfold addrOf; rw [h1]; rfl, h3, r.inUse p (List.mem_of_getElem? h1)⟩

omit [Field K] [DecidableEq K] [AddCommGroup V] [Module K V] in
theorem Rel.mono {used used' : Nat → Prop} {arrays : List (Vertices K m m)} {polys : List (Ref K V m)} {values : List (SObj K V m)}
    (r : Rel used arrays polys values) (h : ∀ l, used l → used' l) : Rel used' arrays polys values :=
  ⟨r.objs, fun p hp => h _ (r.inUse p hp)⟩

omit [Field K] [DecidableEq K] [AddCommGroup V] [Module K V] in
/-- The step of an operation that computes a polynomial. -/
theorem rel_result {used : Nat → Prop} {arrays : List (Vertices K m m)} {polys : List (Ref K V m)} {values : List (SObj K V m)}
    (r : Rel used arrays polys values) {x y : Py (SObj K V m)} {l : Option Nat} (hxy : x = y)
    (hl : ∀ o, y = .ok o → ∃ k, l = some k ∧ arrays[k]? = some o.vertices ∧ used k) :
    Rel used arrays (result polys l x).1 (add values y).1 ∧ (result polys l x).2 = (add values y).2 := by
  subst hxy
  unfold result add
  cases x with
  | error e => exact ⟨r, rfl⟩
  | ok o =>
    obtain ⟨k, rfl, h2, h3⟩ := hl o rfl
    refine ⟨⟨r.objs.append ⟨h2, rfl, rfl⟩, ?_⟩, rfl⟩
    intro p hp
    rcases List.mem_append.1 hp with hp | hp
    · exact r.inUse p hp
    · rw [List.mem_singleton.1 hp]; exact h3

omit [Field K] [DecidableEq K] [AddCommGroup V] [Module K V] in
/-- The result of an operation on the polynomial `a` that keeps its vertices has the array of `a`. -/
theorem addr_of_keeps {W : Type} {used : Nat → Prop} {arrays : List (Vertices K m m)} {polys : List (Ref K V m)}
    {values : List (SObj K V m)} (r : Rel used arrays polys values) {a : Nat} {f : SObj K V m → Py (SObj K W m)}
    (hf : ∀ p, ∀ o, f p = .ok o → o.vertices = p.vertices) :
    ∀ o, (get values a >>= f) = .ok o → ∃ k, addrOf polys a = some k ∧ arrays[k]? = some o.vertices ∧ used k := by
  intro o ho
  cases hg : get values a with
  | error e => rw [hg] at ho; cases ho
  | ok p =>
    rw [hg] at ho
    rw [hf p o ho]
    exact r.addr hg

theorem rel_ustep {used : Nat → Prop} {arrays : List (Vertices K m m)} {polys : List (Ref K V m)} {values : List (SObj K V m)}
    (r : Rel used arrays polys values) (op : UOp K V m) (hop : ∀ basis xs l r', op = .new basis xs l r' → used l) :
    Rel used arrays (SPolyHeap.ustep arrays polys op).1 (Spec.SPolyValues.ustep arrays values op).1 ∧
      (SPolyHeap.ustep arrays polys op).2 = (Spec.SPolyValues.ustep arrays values op).2 := by
  cases op with
  | new basis xs l r' =>
    refine rel_result r (x := arrayAt arrays l >>= fun v => SObj.new basis xs v r')
      (by unfold arrayAt Verif.Spec.SPolyValues.get; cases arrays[l]? <;> rfl) ?_
    intro o ho
    unfold Verif.Spec.SPolyValues.get at ho
    cases hl : arrays[l]? with
    | none => rw [hl] at ho; cases ho
    | some v =>
      rw [hl] at ho
      refine ⟨l, rfl, ?_, hop _ _ _ _ rfl⟩
      rw [Keeps.new _ _ _ _ o ho, hl]
  | add a b =>
    refine rel_result r (by rw [r.view, r.view]) (addr_of_keeps r (fun p => ?_))
    exact Keeps.bind (fun _ _ => keeps_combine _ _ _)
  | sub a b =>
    refine rel_result r (by rw [r.view, r.view]) (addr_of_keeps r (fun p => ?_))
    exact Keeps.bind (fun _ _ => keeps_combine _ _ _)
  | scale a c => exact rel_result r (by rw [r.view]) (addr_of_keeps r (fun p => keeps_smul c p))
  | div a c => exact rel_result r (by rw [r.view]) (addr_of_keeps r (fun p => Keeps.new _ _ _ _))
  | derivative a i => exact rel_result r (by rw [r.view]) (addr_of_keeps r (fun p => keeps_derivative p i))
  | elevate a s => exact rel_result r (by rw [r.view]) (addr_of_keeps r (fun p => keeps_elevate p s))
  | call a x =>
    refine ⟨r, ?_⟩
    simp only [SPolyHeap.ustep, Spec.SPolyValues.ustep]
    rw [r.view]
    cases get values a with
    | error e => rfl
    | ok o =>
      simp only [Py.bind_ok]
      cases o.call x <;> rfl
  | coeff a => exact ⟨r, by simp only [SPolyHeap.ustep, Spec.SPolyValues.ustep]; rw [r.view]⟩
  | simplexVertices a => exact ⟨r, by simp only [SPolyHeap.ustep, Spec.SPolyValues.ustep]; rw [r.view]⟩

/-- The whole state represents the values. -/
structure RelAll {n : Nat} (used : Nat → Prop) (h : Heap K m n) (s : Store K m n) : Prop where
  arrays : h.arrays = s.arrays
  scalars : Rel used h.arrays h.scalars s.scalars
  vectors : Rel used h.arrays h.vectors s.vectors

omit [Field K] [DecidableEq K] in
theorem relAll_empty {n : Nat} : RelAll (fun _ => False) (Heap.empty : Heap K m n) Store.empty :=
  ⟨rfl, ⟨fun i => Or.inl (by simp [Heap.empty, Store.empty]), by simp [Heap.empty]⟩,
    ⟨fun i => Or.inl (by simp [Heap.empty, Store.empty]), by simp [Heap.empty]⟩⟩

omit [Field K] [DecidableEq K] [AddCommGroup V] [Module K V] in
theorem Rel.addArray {used : Nat → Prop} {arrays : List (Vertices K m m)} {polys : List (Ref K V m)} {values : List (SObj K V m)}
    (r : Rel used arrays polys values) (v : Vertices K m m) : Rel used (arrays ++ [v]) polys values :=
  ⟨r.objs.imp (fun _ _ _ h => ⟨get_append_some h.1 _, h.2⟩), r.inUse⟩

omit [Field K] [DecidableEq K] [AddCommGroup V] [Module K V] in
theorem Rel.write {used : Nat → Prop} {arrays : List (Vertices K m m)} {polys : List (Ref K V m)} {values : List (SObj K V m)}
    (r : Rel used arrays polys values) {l : Nat} (hl : ¬ used l) (v : Vertices K m m) : Rel used (arrays.set l v) polys values := by
  refine ⟨r.objs.imp (fun p hp o h => ⟨?_, h.2⟩), r.inUse⟩
  rw [List.getElem?_set_ne (show l ≠ p.addr from fun e => hl (by rw [e]; exact r.inUse p hp))]
  exact h.1

theorem sim_all {n : Nat} {used : Nat → Prop} {h : Heap K m n} {s : Store K m n} (r : RelAll used h s) (op : Op K m n)
    (hop : ∀ l v, op = .write l v → ¬ used l) :
    RelAll (fun l => used l ∨ Uses l op) (h.step op).1 (s.step op).1 ∧ (h.step op).2 = (s.step op).2 := by
  obtain ⟨ha, h1, h2⟩ := r
  have h1' : Rel (fun l => used l ∨ Uses l op) h.arrays h.scalars s.scalars := h1.mono (fun _ => Or.inl)
  have h2' : Rel (fun l => used l ∨ Uses l op) h.arrays h.vectors s.vectors := h2.mono (fun _ => Or.inl)
  cases op with
  | array v =>
    refine ⟨⟨?_, h1'.addArray v, h2'.addArray v⟩, rfl⟩
    simp only [Heap.step, Store.step]
    rw [ha]
  | write l v =>
    have hn : ¬ (fun k => used k ∨ Uses k (.write l v : Op K m n)) l := by
      rintro (hu | ⟨_, _, _, e⟩ | ⟨_, _, _, e⟩)
      · exact hop l v rfl hu
      · cases e
      · cases e
    simp only [Heap.step, Store.step]
    rw [← ha]
    split
    · exact ⟨⟨rfl, h1'.write hn v, h2'.write hn v⟩, rfl⟩
    · exact ⟨⟨ha, h1', h2'⟩, rfl⟩
  | scalar op =>
    obtain ⟨q1, q2⟩ := rel_ustep h1' op (fun basis xs l r' e => Or.inr (Or.inl ⟨basis, xs, r', by rw [e]⟩))
    simp only [Heap.step, Store.step]
    rw [← ha]
    exact ⟨⟨rfl, q1, h2'⟩, by rw [q2]⟩
  | vector op =>
    obtain ⟨q1, q2⟩ := rel_ustep h2' op (fun basis xs l r' e => Or.inr (Or.inr ⟨basis, xs, r', by rw [e]⟩))
    simp only [Heap.step, Store.step]
    rw [← ha]
    exact ⟨⟨rfl, h1', q1⟩, by rw [q2]⟩
  | mul a b =>
    have q := rel_result h1' (x := view h.arrays h.scalars a >>= fun p => view h.arrays h.scalars b >>= fun q => p.mul q)
      (by rw [h1'.view, h1'.view]) (addr_of_keeps h1' (fun p => Keeps.bind (fun q _ => keeps_mul p q)))
    exact ⟨⟨ha, q.1, h2'⟩, congrArg (Except.map Sum.inl) q.2⟩
  | pow a k =>
    have q := rel_result h1' (x := view h.arrays h.scalars a >>= fun p => p.powNat k)
      (by rw [h1'.view]) (addr_of_keeps h1' (fun p => keeps_pow p k))
    exact ⟨⟨ha, q.1, h2'⟩, congrArg (Except.map Sum.inl) q.2⟩
  | component a i =>
    have q := rel_result h1' (x := view h.arrays h.vectors a >>= fun p => p.component i)
      (y := get s.vectors a >>= fun p => p.component i)
      (by rw [h2'.view]) (addr_of_keeps h2' (fun p => Keeps.new _ _ _ _))
    exact ⟨⟨ha, q.1, h2'⟩, congrArg (Except.map Sum.inl) q.2⟩
  | powMulti a exp =>
    have q := rel_result h1' (x := view h.arrays h.vectors a >>= fun p => p.powMulti exp)
      (by rw [h2'.view]) (addr_of_keeps h2' (fun p => keeps_powMulti p exp))
    exact ⟨⟨ha, q.1, h2'⟩, congrArg (Except.map Sum.inl) q.2⟩
  | outer a c =>
    have q := rel_result h2' (x := view h.arrays h.scalars a >>= fun p => p.outer c)
      (y := get s.scalars a >>= fun p => p.outer c)
      (by rw [h1'.view]) (addr_of_keeps h1' (fun p => Keeps.new _ _ _ _))
    exact ⟨⟨ha, h1', q.1⟩, congrArg (Except.map Sum.inr) q.2⟩

theorem results_eq {n : Nat} (ops : List (Op K m n)) :
    ∀ (before : List (Op K m n)), Careful (before ++ ops) →
    ∀ {h : Heap K m n} {s : Store K m n}, RelAll (fun l => ∃ op ∈ before, Uses l op) h s → h.results ops = s.results ops := by
  induction ops with
  | nil => intro _ _ h s _; rfl
  | cons op ops ih =>
    intro before hc h s r
    obtain ⟨h1, h2⟩ := sim_all r op (fun l v e ⟨op', ho, hu⟩ => hc before l v ops (by rw [e]) op' ho hu)
    simp only [Heap.results, Store.results]
    rw [h2]
    refine congrArg _ (ih (before ++ [op]) (by simpa using hc) ⟨h1.arrays, h1.scalars.mono ?_, h1.vectors.mono ?_⟩)
    all_goals
      rintro l (⟨op', ho, hu⟩ | hu)
      · exact ⟨op', by simp [ho], hu⟩
      · exact ⟨op, by simp, hu⟩

/-! ## Evaluation -/

/-- Objects remain, and refer to existing arrays. -/
structure Frame (arrays arrays' : List (Vertices K m m)) (polys polys' : List (Ref K V m)) : Prop where
  polys : ∀ (a : Nat) p, polys[a]? = some p → polys'[a]? = some p
  length : arrays.length ≤ arrays'.length

omit [Field K] [DecidableEq K] [AddCommGroup V] [Module K V] in
theorem frame_result (polys : List (Ref K V m)) (l : Option Nat) (x : Py (SObj K V m)) (a : Nat) (p : Ref K V m) (h : polys[a]? = some p) :
    (result polys l x).1[a]? = some p := by
  unfold result
  split
  · exact h
  · exact get_append_some h _
  · exact h

theorem frame_ustep (arrays : List (Vertices K m m)) (polys : List (Ref K V m)) (op : UOp K V m) (a : Nat) (p : Ref K V m) (h : polys[a]? = some p) :
    (ustep arrays polys op).1[a]? = some p := by
  cases op with
  | call => exact h
  | coeff => exact h
  | simplexVertices => exact h
  | _ => exact frame_result _ _ _ _ _ h

theorem frame_step {n : Nat} (h : Heap K m n) (op : Op K m n) :
    Frame h.arrays (h.step op).1.arrays h.scalars (h.step op).1.scalars ∧ Frame h.arrays (h.step op).1.arrays h.vectors (h.step op).1.vectors := by
  cases op with
  | array v => exact ⟨⟨fun _ _ e => e, by simp [Heap.step]⟩, ⟨fun _ _ e => e, by simp [Heap.step]⟩⟩
  | write l v =>
    simp only [Heap.step]
    split
    · exact ⟨⟨fun _ _ e => e, by simp⟩, ⟨fun _ _ e => e, by simp⟩⟩
    · exact ⟨⟨fun _ _ e => e, le_refl _⟩, ⟨fun _ _ e => e, le_refl _⟩⟩
  | scalar op => exact ⟨⟨frame_ustep _ _ _, le_refl _⟩, ⟨fun _ _ e => e, le_refl _⟩⟩
  | vector op => exact ⟨⟨fun _ _ e => e, le_refl _⟩, ⟨frame_ustep _ _ _, le_refl _⟩⟩
  | mul a b => exact ⟨⟨frame_result _ _ _, le_refl _⟩, ⟨fun _ _ e => e, le_refl _⟩⟩
  | pow a b => exact ⟨⟨frame_result _ _ _, le_refl _⟩, ⟨fun _ _ e => e, le_refl _⟩⟩
  | component a b => exact ⟨⟨frame_result _ _ _, le_refl _⟩, ⟨fun _ _ e => e, le_refl _⟩⟩
  | powMulti a b => exact ⟨⟨frame_result _ _ _, le_refl _⟩, ⟨fun _ _ e => e, le_refl _⟩⟩
  | outer a b => exact ⟨⟨fun _ _ e => e, le_refl _⟩, ⟨frame_result _ _ _, le_refl _⟩⟩

/-- All objects refer to existing arrays. -/
def Ok (arrays : List (Vertices K m m)) (polys : List (Ref K V m)) : Prop := ∀ p ∈ polys, p.addr < arrays.length

omit [Field K] [DecidableEq K] [AddCommGroup V] [Module K V] in
theorem Ok.mono {arrays arrays' : List (Vertices K m m)} {polys : List (Ref K V m)} (h : Ok arrays polys) (hl : arrays.length ≤ arrays'.length) :
    Ok arrays' polys := fun p hp => lt_of_lt_of_le (h p hp) hl

omit [Field K] [DecidableEq K] [AddCommGroup V] [Module K V] in
theorem Ok.addr {arrays : List (Vertices K m m)} {polys : List (Ref K V m)} (h : Ok arrays polys) {a l : Nat} (hl : addrOf polys a = some l) :
    l < arrays.length := by
  unfold addrOf at hl
  rw [Option.map_eq_some_iff] at hl
  obtain ⟨p, hp, rfl⟩ := hl
  exact h p (List.mem_of_getElem? hp)

omit [Field K] [DecidableEq K] [AddCommGroup V] [Module K V] in
theorem ok_result {arrays : List (Vertices K m m)} {polys : List (Ref K V m)} (h : Ok arrays polys) {l : Option Nat} {x : Py (SObj K V m)}
    (hl : ∀ o k, x = .ok o → l = some k → k < arrays.length) : Ok arrays (result polys l x).1 := by
  unfold result
  split
  · exact h
  · intro p hp
    rcases List.mem_append.1 hp with hp | hp
    · exact h p hp
    · rw [List.mem_singleton.1 hp]; exact hl _ _ rfl rfl
  · exact h

theorem ok_ustep {arrays : List (Vertices K m m)} {polys : List (Ref K V m)} (h : Ok arrays polys) (op : UOp K V m) :
    Ok arrays (ustep arrays polys op).1 := by
  cases op with
  | call => exact h
  | coeff => exact h
  | simplexVertices => exact h
  | new basis xs l r =>
    refine ok_result h (fun o k ho hk => ?_)
    cases hk
    cases hl : arrays[l]? with
    | none => simp only [arrayAt, hl] at ho; cases ho
    | some v => exact (List.getElem?_eq_some_iff.1 hl).1
  | _ => exact ok_result h (fun o k _ hk => h.addr hk)

theorem ok_step {n : Nat} {h : Heap K m n} (h1 : Ok h.arrays h.scalars) (h2 : Ok h.arrays h.vectors) (op : Op K m n) :
    Ok (h.step op).1.arrays (h.step op).1.scalars ∧ Ok (h.step op).1.arrays (h.step op).1.vectors := by
  cases op with
  | array v => exact ⟨h1.mono (by simp [Heap.step]), h2.mono (by simp [Heap.step])⟩
  | write l v =>
    simp only [Heap.step]
    split
    · exact ⟨h1.mono (by simp), h2.mono (by simp)⟩
    · exact ⟨h1, h2⟩
  | scalar op => exact ⟨ok_ustep h1 op, h2⟩
  | vector op => exact ⟨h1, ok_ustep h2 op⟩
  | mul a b => exact ⟨ok_result h1 (fun o k _ hk => h1.addr hk), h2⟩
  | pow a b => exact ⟨ok_result h1 (fun o k _ hk => h1.addr hk), h2⟩
  | component a b => exact ⟨ok_result h1 (fun o k _ hk => h2.addr hk), h2⟩
  | powMulti a b => exact ⟨ok_result h1 (fun o k _ hk => h2.addr hk), h2⟩
  | outer a b => exact ⟨h1, ok_result h2 (fun o k _ hk => h1.addr hk)⟩

theorem ok_after {n : Nat} (ops : List (Op K m n)) : ∀ {h : Heap K m n}, Ok h.arrays h.scalars → Ok h.arrays h.vectors →
    Ok (h.after ops).arrays (h.after ops).scalars ∧ Ok (h.after ops).arrays (h.after ops).vectors := by
  induction ops with
  | nil => exact fun h1 h2 => ⟨h1, h2⟩
  | cons op ops ih => exact fun h1 h2 => ih (ok_step h1 h2 op).1 (ok_step h1 h2 op).2

theorem frame_after {n : Nat} (ops : List (Op K m n)) : ∀ (h : Heap K m n),
    Frame h.arrays (h.after ops).arrays h.scalars (h.after ops).scalars ∧ Frame h.arrays (h.after ops).arrays h.vectors (h.after ops).vectors := by
  induction ops with
  | nil => exact fun h => ⟨⟨fun _ _ e => e, le_refl _⟩, ⟨fun _ _ e => e, le_refl _⟩⟩
  | cons op ops ih =>
    intro h
    have f := frame_step h op
    have g := ih (h.step op).1
    exact ⟨⟨fun a p e => g.1.polys a p (f.1.polys a p e), f.1.length.trans g.1.length⟩,
      ⟨fun a p e => g.2.polys a p (f.2.polys a p e), f.2.length.trans g.2.length⟩⟩

theorem after_append {n : Nat} (h : Heap K m n) (ops more : List (Op K m n)) : h.after (ops ++ more) = (h.after ops).after more := by
  simp [Heap.after]

theorem call_of_frame {arrays arrays' : List (Vertices K m m)} {polys polys' : List (Ref K V m)} (f : Frame arrays arrays' polys polys')
    (h : Ok arrays polys) {a : Nat} (ha : a < polys.length) (x : Fin m → K) :
    (ustep arrays' polys' (.call a x)).2 = (ustep arrays polys (.call a x)).2 ∧
    (ustep arrays' polys' (.coeff a)).2 = (ustep arrays polys (.coeff a)).2 := by
  have hp : polys[a]? = some polys[a] := List.getElem?_eq_getElem ha
  have hlt := h _ (List.getElem_mem ha)
  have hlt' := lt_of_lt_of_le hlt f.length
  simp only [ustep, view, hp, f.polys a _ hp, List.getElem?_eq_getElem hlt, List.getElem?_eq_getElem hlt']
  exact ⟨rfl, rfl⟩

end Verif.SPolyHeap
