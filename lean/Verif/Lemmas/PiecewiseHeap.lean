import Verif.Lemmas.PolyHeap
import Verif.Spec.PiecewiseHeap
/-!
# Lemmas: piecewise polynomials that share arrays and sets
-/

namespace Verif.PPHeap
open Verif Verif.Poly Verif.Simplex Verif.SPoly Verif.PP Verif.Spec.PPValues
open Verif.PolyHeap (Matches get_append_some)

/-! ## Results have the mesh and the tree of the first operand, and in some cases its support -/

section Keeps
variable {K V W : Type} [Field K] [LinearOrder K] [AddCommGroup V] [DecidableEq V] [Module K V] [AddCommGroup W] [DecidableEq W] [Module K W] {m : Nat}
  {Tr : Type}

/-- `q` has the mesh and the tree of `p`, and its support if `shared`. -/
def Same (shared : Bool) (p : PObj K W m Tr) (q : PObj K V m Tr) : Prop :=
  q.triangles = p.triangles ∧ q.vertices = p.vertices ∧ q.boundary = p.boundary ∧ q.tree = p.tree ∧ (shared = true → q.support = p.support)

/-- If the computation returns a piecewise polynomial then it has the mesh and the tree of `p`, and its support if `shared`. -/
def Keeps (shared : Bool) (p : PObj K W m Tr) (x : Py (PObj K V m Tr)) : Prop := ∀ q, x = .ok q → Same shared p q

omit [Field K] [LinearOrder K] [AddCommGroup V] [DecidableEq V] [Module K V] [AddCommGroup W] [DecidableEq W] [Module K W] in
theorem Keeps.bind {α : Type} {sh : Bool} {p : PObj K W m Tr} {x : Py α} {f : α → Py (PObj K V m Tr)} (h : ∀ a, x = .ok a → Keeps sh p (f a)) :
    Keeps sh p (x >>= f) := by
  intro q hq
  cases x with
  | error e => cases hq
  | ok a => exact h a rfl q hq

omit [Field K] [LinearOrder K] [AddCommGroup V] [DecidableEq V] [Module K V] [AddCommGroup W] [DecidableEq W] [Module K W] in
theorem Keeps.error (sh : Bool) (p : PObj K W m Tr) (e : PyErr) : Keeps sh p (.error e : Py (PObj K V m Tr)) := by intro p h; cases h

omit [Field K] [LinearOrder K] [AddCommGroup V] [DecidableEq V] [Module K V] [AddCommGroup W] [DecidableEq W] [Module K W] in
theorem Same.trans {U : Type} {p : PObj K W m Tr} {q : PObj K V m Tr} {s : PObj K U m Tr} {sh sh' : Bool} (h : Same sh p q) (h' : Same sh' q s) :
    Same (sh && sh') p s := by
  obtain ⟨a1, a2, a3, a4, a5⟩ := h
  obtain ⟨b1, b2, b3, b4, b5⟩ := h'
  refine ⟨b1.trans a1, b2.trans a2, b3.trans a3, b4.trans a4, fun e => ?_⟩
  rw [Bool.and_eq_true] at e
  exact (b5 e.2).trans (a5 e.1)

omit [Field K] [LinearOrder K] [AddCommGroup V] [DecidableEq V] [Module K V] [AddCommGroup W] [DecidableEq W] [Module K W] in
theorem Same.weaken {p : PObj K W m Tr} {q : PObj K V m Tr} {sh : Bool} (h : Same sh p q) : Same false p q :=
  ⟨h.1, h.2.1, h.2.2.1, h.2.2.2.1, fun e => by cases e⟩

omit [Module K V] [AddCommGroup W] [DecidableEq W] [Module K W] in
theorem new_same {mk : List Nat → Py Tr} {b : Basis} {cont : Bool} {c : List V} {p : PObj K W m Tr} {r : Nat} {tau : Option (Int → List Nat → Py Int)} {kl : Bool}
    {S : Option (List Nat)} {polys : Option (List (Nat × List (SObj K K m)))} {sh : Bool} (hS : sh = true → S = some p.support) :
    Keeps sh p (PObj.new mk b cont c p.triangles p.vertices r tau p.boundary kl S (some p.tree) polys) := by
  unfold PObj.new
  refine Keeps.bind (fun tau' _ => Keeps.bind (fun _ _ => Keeps.bind (fun _ _ => Keeps.bind (fun S' hS' => Keeps.bind (fun t ht => Keeps.bind (fun d _ => ?_))))))
  intro q hq
  cases ht
  cases hq
  refine ⟨rfl, rfl, rfl, rfl, fun e => ?_⟩
  rw [hS e] at hS'
  cases hS'
  rfl

omit [Module K V] [AddCommGroup W] [DecidableEq W] [Module K W] in
theorem keeps_remake (p : PObj K W m Tr) (c : List V) (S : Option (List Nat)) (sh : Bool) (hS : sh = true → S = some p.support) :
    Keeps sh p (p.remake c S) := new_same hS

theorem keeps_elevate (p : PObj K V m Tr) (s : Nat) : Keeps true p (p.degreeElevate s) := by
  unfold PObj.degreeElevate
  refine Keeps.bind (fun _ _ => ?_)
  split
  · exact keeps_remake _ _ _ _ (fun _ => rfl)
  · exact Keeps.bind (fun _ _ => Keeps.bind (fun _ _ => new_same (fun _ => rfl)))

omit [Module K V] in
theorem keeps_same (op : V → V → V) (p q : PObj K V m Tr) : Keeps false p (PP.combineSame op p q) := by
  unfold PP.combineSame
  refine Keeps.bind (fun _ _ => Keeps.bind (fun _ _ => ?_))
  split
  · exact Keeps.bind (fun _ _ => keeps_remake _ _ _ _ (fun e => by cases e))
  · exact Keeps.error _ _ _

theorem keeps_combine (op : V → V → V) (p q : PObj K V m Tr) : Keeps false p (PP.combine op p q) := by
  unfold PP.combine
  refine Keeps.bind (fun _ _ => Keeps.bind (fun _ _ => ?_))
  split
  · exact keeps_same _ _ _
  · split
    · exact Keeps.bind (fun _ _ => keeps_same _ _ _)
    · refine Keeps.bind (fun p' hp' => ?_)
      intro s hs
      exact (keeps_elevate p _ p' hp').trans (keeps_same _ _ _ s hs)

theorem keeps_smul (c : K) (p : PObj K V m Tr) : Keeps (decide (c ≠ 0)) p (p.smul c) :=
  keeps_remake _ _ _ _ (fun e => by simp only [decide_eq_true_eq] at e; rw [if_neg e])

theorem keeps_div (c : K) (p : PObj K V m Tr) : Keeps true p (p.divConst c) := keeps_remake _ _ _ _ (fun _ => rfl)

theorem keeps_outer {n : Nat} (p : PObj K K m Tr) (c : Fin n → K) : Keeps (decide (c ≠ 0)) p (p.outer c) :=
  keeps_remake _ _ _ _ (fun e => by simp only [decide_eq_true_eq] at e; rw [if_neg e])

theorem keeps_component {n : Nat} (p : PObj K (Fin n → K) m Tr) (i : Nat) : Keeps false p (p.component i) := by
  unfold PObj.component
  split
  · exact keeps_remake _ _ _ _ (fun e => by cases e)
  · exact Keeps.error _ _ _

theorem keeps_mul (p q : PObj K K m Tr) : Keeps false p (p.mul q) := by
  unfold PObj.mul
  exact Keeps.bind (fun _ _ => Keeps.bind (fun _ _ => Keeps.bind (fun _ _ => Keeps.bind (fun _ _ => new_same (fun e => by cases e)))))

theorem keeps_pow (p : PObj K K m Tr) (k : Nat) : Keeps (decide (k = 1)) p (p.powNat k) := by
  match k with
  | 0 => unfold PObj.powNat unitPiecewise; exact new_same (fun e => by simp at e)
  | 1 => unfold PObj.powNat; exact keeps_remake _ _ _ _ (fun _ => rfl)
  | k + 2 =>
    unfold PObj.powNat
    rw [decide_eq_false (by omega)]
    exact Keeps.bind (fun _ _ => keeps_mul _ _)

theorem keeps_unitPower (p : PObj K W m Tr) : Keeps false p p.unitPower := by
  unfold PObj.unitPower unitPiecewise
  exact new_same (fun e => by cases e)

theorem keeps_bernsteinAux {n : Nat} (p : PObj K (Fin n → K) m Tr) (fuel : Nat) (exp : List Nat) : Keeps false p (p.powMultiBernsteinAux fuel exp) := by
  cases fuel with
  | zero => exact Keeps.error _ _ _
  | succ fuel =>
    unfold PObj.powMultiBernsteinAux
    refine Keeps.bind (fun _ _ => ?_)
    split
    · exact keeps_unitPower p
    · split
      · exact Keeps.error _ _ _
      · refine Keeps.bind (fun _ _ => Keeps.bind (fun pi hpi => Keeps.bind (fun _ _ => Keeps.bind (fun rest _ => ?_))))
        intro s hs
        exact ((keeps_remake p _ _ false (fun e => by cases e) pi hpi).trans (keeps_mul pi rest s hs))

theorem keeps_powMulti {n : Nat} (p : PObj K (Fin n → K) m Tr) (exp : List Nat) :
    Keeps (decide (p.basis = .lagrange) && decide (p.r * MI.norm exp ≠ 0)) p (p.powMulti exp) := by
  unfold PObj.powMulti
  split
  · rename_i hb
    rw [decide_eq_true hb, Bool.true_and]
    unfold PObj.powMultiLagrange
    refine Keeps.bind (fun _ _ => ?_)
    by_cases h : p.r * MI.norm exp = 0
    · rw [decide_eq_false (not_not.2 h)]
      simp only [if_pos h]
      exact keeps_unitPower p
    · simp only [if_neg h]
      exact Keeps.bind (fun _ _ => Keeps.bind (fun _ _ => new_same (fun _ => rfl)))
  · rename_i hb
    rw [decide_eq_false (by exact hb), Bool.false_and]
    exact keeps_bernsteinAux _ _ _

theorem keeps_weak (empty : Nat → List V) (step : L2G.Map → Nat → List V → Nat → Py (List V)) (p : PObj K V m Tr) :
    Keeps true p (weakDerivative empty step p) := by
  unfold weakDerivative
  exact Keeps.bind (fun _ _ => Keeps.bind (fun _ _ => new_same (fun _ => rfl)))

theorem keeps_weakScalar {T : Type} (p : PObj K K m (T × List Nat)) (i : Nat) (empty : Nat → List K) : Keeps true p (weakScalar p i empty) := by
  unfold weakScalar
  split
  · split <;> exact keeps_weak _ _ _
  · exact Keeps.error _ _ _

theorem keeps_weakVector {T : Type} {n : Nat} (p : PObj K (Fin n → K) m (T × List Nat)) (i : Nat) (empty : Nat → List (Fin n → K)) :
    Keeps true p (weakVector p i empty) := by
  unfold weakVector
  split
  · split <;> exact keeps_weak _ _ _
  · exact Keeps.error _ _ _

end Keeps

/-! ## Refinement -/

variable {K V W : Type} [Field K] [LinearOrder K] [AddCommGroup V] [DecidableEq V] [Module K V] [AddCommGroup W] [DecidableEq W] [Module K W] {m : Nat}
  {T : Type}

omit [Field K] [LinearOrder K] [AddCommGroup V] [DecidableEq V] [Module K V] in
theorem deref_ok {α : Type} {l : List α} {a : Nat} {v : α} : deref l a = .ok v ↔ l[a]? = some v := by
  unfold deref
  cases l[a]? with
  | none => simp
  | some w => simp

theorem deref_eq_get {α : Type} (l : List α) (a : Nat) : deref l a = get l a := rfl

/-- The boundary simplices of an object are those at their address. -/
def BoundaryAt (M : Memory K m) (a : Option Nat) (b : Option (List (List Nat))) : Prop := derefOption M.index a = .ok b

/-- The attributes of `o` are stored at `a`. -/
structure At (M : Memory K m) (a : Addr) (o : PObj K V m (T × List Nat)) : Prop where
  triangles : M.index[a.triangles]? = some o.triangles
  vertices : M.points[a.vertices]? = some o.vertices
  boundary : BoundaryAt M a.boundary o.boundary
  support : M.sets[a.support]? = some o.support
  root : M.sets[a.root]? = some o.tree.2

/-- The object has the attributes of `o` that are not stored elsewhere. -/
structure Own (p o : PObj K V m (T × List Nat)) : Prop where
  basis : p.basis = o.basis
  cont : p.cont = o.cont
  coeff : p.coeff = o.coeff
  tau : p.tau = o.tau
  keepLast : p.keepLast = o.keepLast
  r : p.r = o.r
  tree : p.tree.1 = o.tree.1
  polys : p.polys = o.polys

omit [Field K] [LinearOrder K] [AddCommGroup V] [DecidableEq V] [Module K V] in
theorem now_of_at {M : Memory K m} {p : Ref K V m T} {o : PObj K V m (T × List Nat)} (h : At M p.addr o) (ho : Own p.body o) : p.now M = .ok o := by
  obtain ⟨h1, h2, h3, h4, h5⟩ := h
  obtain ⟨o1, o2, o3, o4, o5, o6, o7, o8⟩ := ho
  unfold Ref.now
  rw [deref_ok.2 h1, deref_ok.2 h2, show derefOption M.index p.addr.boundary = _ from h3, deref_ok.2 h4, deref_ok.2 h5]
  simp only [Py.bind_ok, Py.pure_eq, Except.ok.injEq]
  rw [o1, o2, o3, o4, o5, o6, o7, o8]

/-- The objects represent the values, and refer only to arrays that the program has used. -/
structure Rel (usedI usedP : Nat → Prop) (M : Memory K m) (polys : List (Ref K V m T)) (values : List (PObj K V m (T × List Nat))) : Prop where
  objs : Matches (fun (p : Ref K V m T) (o : PObj K V m (T × List Nat)) => At M p.addr o ∧ Own p.body o) polys values
  triangles : ∀ p ∈ polys, usedI p.addr.triangles
  boundary : ∀ p ∈ polys, ∀ b, p.addr.boundary = some b → usedI b
  vertices : ∀ p ∈ polys, usedP p.addr.vertices

omit [Field K] [LinearOrder K] [AddCommGroup V] [DecidableEq V] [Module K V] in
theorem Rel.view {usedI usedP : Nat → Prop} {M : Memory K m} {polys : List (Ref K V m T)} {values : List (PObj K V m (T × List Nat))}
    (r : Rel usedI usedP M polys values) (a : Nat) : PPHeap.view M polys a = get values a := by
  unfold PPHeap.view deref Verif.Spec.PPValues.get
  rcases r.objs a with ⟨h1, h2⟩ | ⟨p, o, h1, h2, h3, h4⟩
  · rw [h1, h2]; rfl
  · rw [h1, h2]
    exact now_of_at h3 h4

omit [Field K] [LinearOrder K] [AddCommGroup V] [DecidableEq V] [Module K V] in
theorem Rel.mono {usedI usedP usedI' usedP' : Nat → Prop} {M : Memory K m} {polys : List (Ref K V m T)} {values : List (PObj K V m (T × List Nat))}
    (r : Rel usedI usedP M polys values) (h : ∀ l, usedI l → usedI' l) (h' : ∀ l, usedP l → usedP' l) : Rel usedI' usedP' M polys values :=
  ⟨r.objs, fun p hp => h _ (r.triangles p hp), fun p hp b hb => h _ (r.boundary p hp b hb), fun p hp => h' _ (r.vertices p hp)⟩

/-- Adding a set does not change what objects see. -/
def addSet (M : Memory K m) (s : List (List Nat)) : Memory K m := { M with sets := M.sets ++ s }

omit [Field K] [LinearOrder K] [AddCommGroup V] [DecidableEq V] [Module K V] in
theorem At.addSet {M : Memory K m} {a : Addr} {o : PObj K V m (T × List Nat)} (h : At M a o) (s : List (List Nat)) : At (addSet M s) a o :=
  ⟨h.triangles, h.vertices, h.boundary, get_append_some h.support _, get_append_some h.root _⟩

omit [Field K] [LinearOrder K] [AddCommGroup V] [DecidableEq V] [Module K V] in
theorem Rel.addSet {usedI usedP : Nat → Prop} {M : Memory K m} {polys : List (Ref K V m T)} {values : List (PObj K V m (T × List Nat))}
    (r : Rel usedI usedP M polys values) (s : List (List Nat)) : Rel usedI usedP (addSet M s) polys values :=
  ⟨r.objs.imp (fun _ _ _ h => ⟨h.1.addSet s, h.2⟩), r.triangles, r.boundary, r.vertices⟩

/-- The references with which the value `o` can be constructed. -/
structure OriginAt (usedI usedP : Nat → Prop) (M : Memory K m) (d : Origin) (o : PObj K V m (T × List Nat)) : Prop where
  triangles : M.index[d.triangles]? = some o.triangles
  vertices : M.points[d.vertices]? = some o.vertices
  boundary : BoundaryAt M d.boundary o.boundary
  support : ∀ s, d.support = some s → M.sets[s]? = some o.support
  root : ∀ s, d.root = some s → M.sets[s]? = some o.tree.2
  newRoot : d.root = none → d.support = none ∧ o.tree.2 = o.support
  usedT : usedI d.triangles
  usedB : ∀ b, d.boundary = some b → usedI b
  usedV : usedP d.vertices

omit [Field K] [LinearOrder K] [AddCommGroup V] [DecidableEq V] [Module K V] in
/-- The step of an operation that computes a piecewise polynomial. -/
theorem rel_result {usedI usedP : Nat → Prop} {M : Memory K m} {polys : List (Ref K V m T)} {values : List (PObj K V m (T × List Nat))}
    (r : Rel usedI usedP M polys values) {x y : Py (PObj K V m (T × List Nat))} {d : Option Origin} (hxy : x = y)
    (hd : ∀ o, y = .ok o → ∃ d', d = some d' ∧ OriginAt usedI usedP M d' o) :
    ∃ s, (result M.sets polys d x).1 = M.sets ++ s ∧ Rel usedI usedP (addSet M s) (result M.sets polys d x).2.1 (add values y).1 ∧
      (result M.sets polys d x).2.2 = (add values y).2 := by
  subst hxy
  unfold result add
  cases x with
  | error e => exact ⟨[], by simp, r.addSet [], rfl⟩
  | ok o =>
    obtain ⟨d', rfl, h⟩ := hd o rfl
    have key : ∀ (s : List (List Nat)) (a : Addr), At (addSet M s) a o → a.triangles = d'.triangles → a.vertices = d'.vertices → a.boundary = d'.boundary →
        Rel usedI usedP (addSet M s) (polys ++ [⟨o, a⟩]) (values ++ [o]) := by
      intro s a ha e1 e2 e3
      have r' := r.addSet s
      refine ⟨r'.objs.append ⟨ha, ⟨rfl, rfl, rfl, rfl, rfl, rfl, rfl, rfl⟩⟩, ?_, ?_, ?_⟩ <;> intro p hp <;> rcases List.mem_append.1 hp with hp | hp
      · exact r.triangles p hp
      · rw [List.mem_singleton.1 hp]; exact e1 ▸ h.usedT
      · exact r.boundary p hp
      · rw [List.mem_singleton.1 hp]; intro b hb; exact h.usedB b (e3 ▸ hb)
      · exact r.vertices p hp
      · rw [List.mem_singleton.1 hp]; exact e2 ▸ h.usedV
    obtain ⟨dt, dv, db, ds, dr⟩ := d'
    cases ds with
    | some s =>
      have hr : ∃ k, dr = some k := by
        cases dr with
        | some k => exact ⟨k, rfl⟩
        | none => exact absurd (h.newRoot rfl).1 (by simp)
      obtain ⟨k, rfl⟩ := hr
      refine ⟨[], by simp, key [] _ ?_ rfl rfl rfl, rfl⟩
      exact At.addSet ⟨h.triangles, h.vertices, h.boundary, h.support s rfl, h.root k rfl⟩ []
    | none =>
      refine ⟨[o.support], rfl, key [o.support] _ ?_ rfl rfl rfl, rfl⟩
      refine ⟨h.triangles, h.vertices, h.boundary, by simp [PPHeap.addSet], ?_⟩
      cases dr with
      | some k => exact get_append_some (h.root k rfl) _
      | none => simp [PPHeap.addSet, (h.newRoot rfl).2]

omit [Field K] [LinearOrder K] [AddCommGroup V] [DecidableEq V] [Module K V] [AddCommGroup W] [DecidableEq W] [Module K W] in
/-- The result of an operation on the piecewise polynomial `a` that keeps its mesh is constructed with its references. -/
theorem origin_of_keeps {usedI usedP : Nat → Prop} {M : Memory K m} {polys : List (Ref K V m T)} {values : List (PObj K V m (T × List Nat))}
    (r : Rel usedI usedP M polys values) {a : Nat} {sh : Bool} {f : PObj K V m (T × List Nat) → Py (PObj K W m (T × List Nat))}
    (hf : ∀ p, get values a = .ok p → Keeps sh p (f p)) :
    ∀ o, (get values a >>= f) = .ok o → ∃ d, originOf polys a sh = some d ∧ OriginAt usedI usedP M d o := by
  intro o ho
  rcases r.objs a with ⟨_, h2⟩ | ⟨p, q, h1, h2, h3, _⟩
  · unfold Verif.Spec.PPValues.get at ho; rw [h2] at ho; cases ho
  · have hg : get values a = .ok q := by unfold Verif.Spec.PPValues.get; rw [h2]
    rw [hg] at ho
    obtain ⟨s1, s2, s3, s4, s5⟩ := hf q hg o ho
    have hp := List.mem_of_getElem? h1
    refine ⟨_, by unfold originOf; rw [h1]; rfl, ⟨s1 ▸ h3.triangles, s2 ▸ h3.vertices, s3 ▸ h3.boundary, ?_, ?_, ?_, r.triangles p hp, r.boundary p hp,
      r.vertices p hp⟩⟩
    · intro s hs
      cases sh with
      | false => simp at hs
      | true =>
        simp only [if_true, Option.some.injEq] at hs
        rw [← hs, s5 rfl]
        exact h3.support
    · intro s hs
      simp only [Option.some.injEq] at hs
      rw [← hs, s4]
      exact h3.root
    · intro e; cases e

omit [Module K V] in
theorem new_fresh {S : Search K m T} {b : Basis} {cont : Bool} {xs : List V} {t : List (List Nat)} {v : List (Fin m → K)} {r : Nat}
    {bd : Option (List (List Nat))} {kl : Bool} {sup : Option (List Nat)} {o : PObj K V m (T × List Nat)}
    (h : PObj.new (S.tree t v) b cont xs t v r none bd kl sup none none = .ok o) :
    o.triangles = t ∧ o.vertices = v ∧ o.boundary = bd ∧ o.tree.2 = o.support := by
  have key : ∀ {α : Type} {x : Py α} {f : α → Py (PObj K V m (T × List Nat))}, (x >>= f) = .ok o → ∃ a, x = .ok a ∧ f a = .ok o := by
    intro α x f hx
    cases x with
    | error e => cases hx
    | ok a => exact ⟨a, rfl, hx⟩
  unfold PObj.new at h
  obtain ⟨_, _, h⟩ := key h
  obtain ⟨_, _, h⟩ := key h
  obtain ⟨_, _, h⟩ := key h
  obtain ⟨s, _, h⟩ := key h
  obtain ⟨t', ht, h⟩ := key h
  obtain ⟨_, _, h⟩ := key h
  cases h
  refine ⟨rfl, rfl, rfl, ?_⟩
  unfold Search.tree at ht
  cases hc : S.create t v s with
  | error e => rw [hc] at ht; cases ht
  | ok c => rw [hc] at ht; cases ht; rfl

theorem map_bind_value {α β γ : Type} (x : Py α) (f : α → Py β) (g : β → γ) : (x >>= fun p => f p >>= fun y => (pure (g y) : Py γ)) = (x >>= f).map g := by
  cases x with
  | error e => rfl
  | ok a =>
    simp only [Py.bind_ok]
    cases f a <;> rfl

theorem map_bind_pure {α γ : Type} (x : Py α) (g : α → γ) : (x >>= fun p => (pure (g p) : Py γ)) = x.map g := by cases x <;> rfl

/-- The arrays of the memory. -/
def arraysOf (M : Memory K m) : Arrays K m := ⟨M.index, M.points⟩

theorem rel_ustep {usedI usedP : Nat → Prop} {M : Memory K m} {polys : List (Ref K V m T)} {values : List (PObj K V m (T × List Nat))}
    (S : Search K m T) (r : Rel usedI usedP M polys values) (op : UOp K V m)
    (hnew : ∀ basis cont xs t v r b keepLast support, op = .new basis cont xs t v r b keepLast support →
      usedI t ∧ (∀ l, b = some l → usedI l) ∧ usedP v) (hedit : ∀ a s, op ≠ .editSupport a s) :
    ∃ s, (PPHeap.ustep S M polys op).1 = M.sets ++ s ∧
      Rel usedI usedP (addSet M s) (PPHeap.ustep S M polys op).2.1 (Spec.PPValues.ustep S (arraysOf M) values op).1 ∧
      (PPHeap.ustep S M polys op).2.2 = (Spec.PPValues.ustep S (arraysOf M) values op).2 := by
  have hq : ∀ (x y : Py (Out K V m)), x = y → ∃ s, (query M.sets polys x).1 = M.sets ++ s ∧ Rel usedI usedP (addSet M s) (query M.sets polys x).2.1 values ∧
      (query M.sets polys x).2.2 = y := fun x y e => ⟨[], by simp [query], r.addSet [], e⟩
  cases op with
  | new basis cont xs t v r' b keepLast support =>
    refine rel_result r rfl ?_
    intro o ho
    obtain ⟨u1, u2, u3⟩ := hnew _ _ _ _ _ _ _ _ _ rfl
    have ho' : construct S M basis cont xs t v r' b keepLast support = .ok o := ho
    unfold construct at ho'
    cases h1 : deref M.index t with
    | error e => rw [h1] at ho'; cases ho'
    | ok tt =>
      cases h2 : deref M.points v with
      | error e => rw [h1, h2] at ho'; cases ho'
      | ok vv =>
        cases h3 : derefOption M.index b with
        | error e => rw [h1, h2, h3] at ho'; cases ho'
        | ok bb =>
          rw [h1, h2, h3] at ho'
          obtain ⟨e1, e2, e3, e4⟩ := new_fresh ho'
          refine ⟨_, rfl, ⟨?_, ?_, ?_, ?_, ?_, ?_, u1, u2, u3⟩⟩
          · rw [e1]; exact deref_ok.1 h1
          · rw [e2]; exact deref_ok.1 h2
          · rw [e3]; exact h3
          · intro s hs; cases hs
          · intro s hs; cases hs
          · exact fun _ => ⟨rfl, e4⟩
  | add a b =>
    refine rel_result r (by rw [r.view, r.view]) (origin_of_keeps r (fun p _ => ?_))
    exact Keeps.bind (fun _ _ => keeps_combine _ _ _)
  | sub a b =>
    refine rel_result r (by rw [r.view, r.view]) (origin_of_keeps r (fun p _ => ?_))
    exact Keeps.bind (fun _ _ => keeps_combine _ _ _)
  | scale a c => exact rel_result r (by rw [r.view]) (origin_of_keeps r (fun p _ => keeps_smul c p))
  | div a c => exact rel_result r (by rw [r.view]) (origin_of_keeps r (fun p _ => keeps_div c p))
  | elevate a s => exact rel_result r (by rw [r.view]) (origin_of_keeps r (fun p _ => keeps_elevate p s))
  | call a x => exact hq _ _ (by rw [r.view]; exact map_bind_value _ _ _)
  | evaluate a j x => exact hq _ _ (by rw [r.view]; exact map_bind_value _ _ _)
  | restrict a j x =>
    refine hq _ _ ?_
    rw [r.view]
    show _ = (get values a >>= fun p => p.restrictToSimplex j >>= fun q => q.call x).map _
    cases get values a with
    | error e => rfl
    | ok p =>
      simp only [Py.bind_ok]
      exact map_bind_value _ _ _
  | coeff a => exact hq _ _ (by rw [r.view]; exact map_bind_pure _ _)
  | support a => exact hq _ _ (by rw [r.view]; exact map_bind_pure _ _)
  | editSupport a s => exact absurd rfl (hedit a s)
  | mesh a => exact hq _ _ (by rw [r.view]; exact map_bind_pure _ _)

/-- The whole state represents the values. -/
structure RelAll {n : Nat} (usedI usedP : Nat → Prop) (h : Heap K m n T) (s : Store K m n T) : Prop where
  arrays : arraysOf h.mem = s.arrays
  scalars : Rel usedI usedP h.mem h.scalars s.scalars
  vectors : Rel usedI usedP h.mem h.vectors s.vectors

omit [Field K] [LinearOrder K] in
theorem relAll_empty {n : Nat} : RelAll (fun _ => False) (fun _ => False) (Heap.empty : Heap K m n T) Store.empty :=
  ⟨rfl, ⟨fun i => Or.inl (by simp [Heap.empty, Store.empty]), by simp [Heap.empty], by simp [Heap.empty], by simp [Heap.empty]⟩,
    ⟨fun i => Or.inl (by simp [Heap.empty, Store.empty]), by simp [Heap.empty], by simp [Heap.empty], by simp [Heap.empty]⟩⟩

omit [Field K] [LinearOrder K] in
theorem BoundaryAt.imp {M M' : Memory K m} {a : Option Nat} {b : Option (List (List Nat))} (h : BoundaryAt M a b)
    (hi : ∀ l t, a = some l → M.index[l]? = some t → M'.index[l]? = some t) : BoundaryAt M' a b := by
  unfold BoundaryAt derefOption at *
  cases a with
  | none => exact h
  | some l =>
    cases hl : deref M.index l with
    | error e => simp only [hl] at h; cases h
    | ok t =>
      simp only [hl] at h
      simp only [deref_ok.2 (hi l t rfl (deref_ok.1 hl))]
      exact h

omit [Field K] [LinearOrder K] [AddCommGroup V] [DecidableEq V] [Module K V] in
theorem Rel.addIndex {usedI usedP : Nat → Prop} {M : Memory K m} {polys : List (Ref K V m T)} {values : List (PObj K V m (T × List Nat))}
    (r : Rel usedI usedP M polys values) (t : List (List Nat)) : Rel usedI usedP { M with index := M.index ++ [t] } polys values :=
  ⟨r.objs.imp (fun _ _ _ h => ⟨⟨get_append_some h.1.triangles _, h.1.vertices, h.1.boundary.imp (fun _ _ _ e => get_append_some e _), h.1.support,
    h.1.root⟩, h.2⟩), r.triangles, r.boundary, r.vertices⟩

omit [Field K] [LinearOrder K] [AddCommGroup V] [DecidableEq V] [Module K V] in
theorem Rel.addPoints {usedI usedP : Nat → Prop} {M : Memory K m} {polys : List (Ref K V m T)} {values : List (PObj K V m (T × List Nat))}
    (r : Rel usedI usedP M polys values) (v : List (Fin m → K)) : Rel usedI usedP { M with points := M.points ++ [v] } polys values :=
  ⟨r.objs.imp (fun _ _ _ h => ⟨⟨h.1.triangles, get_append_some h.1.vertices _, h.1.boundary, h.1.support, h.1.root⟩, h.2⟩), r.triangles, r.boundary,
    r.vertices⟩

omit [Field K] [LinearOrder K] [AddCommGroup V] [DecidableEq V] [Module K V] in
theorem Rel.writeIndex {usedI usedP : Nat → Prop} {M : Memory K m} {polys : List (Ref K V m T)} {values : List (PObj K V m (T × List Nat))}
    (r : Rel usedI usedP M polys values) {l : Nat} (hl : ¬ usedI l) (t : List (List Nat)) :
    Rel usedI usedP { M with index := M.index.set l t } polys values := by
  have key : ∀ k u, usedI k → M.index[k]? = some u → (M.index.set l t)[k]? = some u := by
    intro k u hk hu
    rw [List.getElem?_set_ne (show l ≠ k from fun e => hl (by rw [e]; exact hk))]
    exact hu
  refine ⟨r.objs.imp (fun p hp _ h => ⟨⟨key _ _ (r.triangles p hp) h.1.triangles, h.1.vertices, h.1.boundary.imp ?_, h.1.support, h.1.root⟩, h.2⟩),
    r.triangles, r.boundary, r.vertices⟩
  exact fun k u e hu => key k u (r.boundary p hp k e) hu

omit [Field K] [LinearOrder K] [AddCommGroup V] [DecidableEq V] [Module K V] in
theorem Rel.writePoints {usedI usedP : Nat → Prop} {M : Memory K m} {polys : List (Ref K V m T)} {values : List (PObj K V m (T × List Nat))}
    (r : Rel usedI usedP M polys values) {l : Nat} (hl : ¬ usedP l) (v : List (Fin m → K)) :
    Rel usedI usedP { M with points := M.points.set l v } polys values := by
  refine ⟨r.objs.imp (fun p hp _ h => ⟨⟨h.1.triangles, ?_, h.1.boundary, h.1.support, h.1.root⟩, h.2⟩), r.triangles, r.boundary, r.vertices⟩
  show (M.points.set l v)[_]? = _
  rw [List.getElem?_set_ne (show l ≠ p.addr.vertices from fun e => hl (by rw [e]; exact r.vertices p hp))]
  exact h.1.vertices

omit [Field K] [LinearOrder K] in
theorem relAll_scalar {n : Nat} {usedI usedP : Nat → Prop} {h : Heap K m n T} {s : Store K m n T} (r : RelAll usedI usedP h s)
    {u : List (List Nat) × List (Ref K K m T) × Py (Out K K m)} {w : List (PObj K K m (T × List Nat)) × Py (Out K K m)}
    (q : ∃ t, u.1 = h.mem.sets ++ t ∧ Rel usedI usedP (addSet h.mem t) u.2.1 w.1 ∧ u.2.2 = w.2) :
    RelAll usedI usedP (h.scalarResult u).1 (s.scalarResult w).1 ∧ (h.scalarResult u).2 = (s.scalarResult w).2 := by
  obtain ⟨t, q1, q2, q3⟩ := q
  have hm : (h.scalarResult u).1.mem = addSet h.mem t := by unfold Heap.scalarResult addSet; rw [q1]
  refine ⟨⟨r.arrays, ?_, ?_⟩, ?_⟩
  · rw [hm]; exact q2
  · rw [hm]; exact r.vectors.addSet t
  · unfold Heap.scalarResult Store.scalarResult; rw [q3]

omit [Field K] [LinearOrder K] in
theorem relAll_vector {n : Nat} {usedI usedP : Nat → Prop} {h : Heap K m n T} {s : Store K m n T} (r : RelAll usedI usedP h s)
    {u : List (List Nat) × List (Ref K (Fin n → K) m T) × Py (Out K (Fin n → K) m)}
    {w : List (PObj K (Fin n → K) m (T × List Nat)) × Py (Out K (Fin n → K) m)}
    (q : ∃ t, u.1 = h.mem.sets ++ t ∧ Rel usedI usedP (addSet h.mem t) u.2.1 w.1 ∧ u.2.2 = w.2) :
    RelAll usedI usedP (h.vectorResult u).1 (s.vectorResult w).1 ∧ (h.vectorResult u).2 = (s.vectorResult w).2 := by
  obtain ⟨t, q1, q2, q3⟩ := q
  have hm : (h.vectorResult u).1.mem = addSet h.mem t := by unfold Heap.vectorResult addSet; rw [q1]
  refine ⟨⟨r.arrays, ?_, ?_⟩, ?_⟩
  · rw [hm]; exact r.scalars.addSet t
  · rw [hm]; exact q2
  · unfold Heap.vectorResult Store.vectorResult; rw [q3]

theorem sim_all {n : Nat} {usedI usedP : Nat → Prop} {h : Heap K m n T} {s : Store K m n T} (S : Search K m T) (r : RelAll usedI usedP h s) (op : Op K m n)
    (hi : ∀ l t, op = .writeIndex l t → ¬ usedI l) (hp : ∀ l v, op = .writePoints l v → ¬ usedP l) (he : ¬ EditsSupport op) :
    RelAll (fun l => usedI l ∨ UsesIndex l op) (fun l => usedP l ∨ UsesPoints l op) (h.step S op).1 (s.step S op).1 ∧
      (h.step S op).2 = (s.step S op).2 := by
  have r' : RelAll (fun l => usedI l ∨ UsesIndex l op) (fun l => usedP l ∨ UsesPoints l op) h s :=
    ⟨r.arrays, r.scalars.mono (fun _ => Or.inl) (fun _ => Or.inl), r.vectors.mono (fun _ => Or.inl) (fun _ => Or.inl)⟩
  have ha := r.arrays
  obtain ⟨arr, sc, ve⟩ := s
  simp only at ha
  subst ha
  cases op with
  | indexArray t => exact ⟨⟨rfl, r'.scalars.addIndex t, r'.vectors.addIndex t⟩, rfl⟩
  | pointArray v => exact ⟨⟨rfl, r'.scalars.addPoints v, r'.vectors.addPoints v⟩, rfl⟩
  | writeIndex l t =>
    have hn : ¬ (fun k => usedI k ∨ UsesIndex k (.writeIndex l t : Op K m n)) l := by
      rintro (hu | ⟨_, _, _, _, _, _, _, _, _, e, _⟩ | ⟨_, _, _, _, _, _, _, _, _, e, _⟩)
      · exact hi l t rfl hu
      · cases e
      · cases e
    by_cases hc : h.mem.index[l]?.map List.length = some t.length
    · rw [show h.step S (.writeIndex l t) = _ from if_pos hc, show Store.step S ⟨arraysOf h.mem, sc, ve⟩ (.writeIndex l t) = _ from if_pos hc]
      exact ⟨⟨rfl, r'.scalars.writeIndex hn t, r'.vectors.writeIndex hn t⟩, rfl⟩
    · rw [show h.step S (.writeIndex l t) = _ from if_neg hc, show Store.step S ⟨arraysOf h.mem, sc, ve⟩ (.writeIndex l t) = _ from if_neg hc]
      exact ⟨r', rfl⟩
  | writePoints l v =>
    have hn : ¬ (fun k => usedP k ∨ UsesPoints k (.writePoints l v : Op K m n)) l := by
      rintro (hu | ⟨_, _, _, _, _, _, _, _, e⟩ | ⟨_, _, _, _, _, _, _, _, e⟩)
      · exact hp l v rfl hu
      · cases e
      · cases e
    by_cases hc : h.mem.points[l]?.map List.length = some v.length
    · rw [show h.step S (.writePoints l v) = _ from if_pos hc, show Store.step S ⟨arraysOf h.mem, sc, ve⟩ (.writePoints l v) = _ from if_pos hc]
      exact ⟨⟨rfl, r'.scalars.writePoints hn v, r'.vectors.writePoints hn v⟩, rfl⟩
    · rw [show h.step S (.writePoints l v) = _ from if_neg hc, show Store.step S ⟨arraysOf h.mem, sc, ve⟩ (.writePoints l v) = _ from if_neg hc]
      exact ⟨r', rfl⟩
  | scalar op =>
    refine relAll_scalar r' (rel_ustep S r'.scalars op ?_ ?_)
    · intro basis cont xs t v r b kl sup e
      exact ⟨Or.inr (Or.inl ⟨basis, cont, xs, t, v, r, b, kl, sup, by rw [e], Or.inl rfl⟩),
        fun l hl => Or.inr (Or.inl ⟨basis, cont, xs, t, v, r, b, kl, sup, by rw [e], Or.inr hl⟩),
        Or.inr (Or.inl ⟨basis, cont, xs, t, r, b, kl, sup, by rw [e]⟩)⟩
    · intro a t e
      exact he (Or.inl ⟨a, t, by rw [e]⟩)
  | vector op =>
    refine relAll_vector r' (rel_ustep S r'.vectors op ?_ ?_)
    · intro basis cont xs t v r b kl sup e
      exact ⟨Or.inr (Or.inr ⟨basis, cont, xs, t, v, r, b, kl, sup, by rw [e], Or.inl rfl⟩),
        fun l hl => Or.inr (Or.inr ⟨basis, cont, xs, t, v, r, b, kl, sup, by rw [e], Or.inr hl⟩),
        Or.inr (Or.inr ⟨basis, cont, xs, t, r, b, kl, sup, by rw [e]⟩)⟩
    · intro a t e
      exact he (Or.inr ⟨a, t, by rw [e]⟩)
  | mul a b =>
    exact relAll_scalar r' (rel_result r'.scalars (by rw [r'.scalars.view, r'.scalars.view])
      (origin_of_keeps r'.scalars (fun p _ => Keeps.bind (fun q _ => keeps_mul p q))))
  | pow a k => exact relAll_scalar r' (rel_result r'.scalars (by rw [r'.scalars.view]) (origin_of_keeps r'.scalars (fun p _ => keeps_pow p k)))
  | component a i =>
    exact relAll_scalar r' (rel_result r'.scalars (by rw [r'.vectors.view]) (origin_of_keeps r'.vectors (fun p _ => keeps_component p i)))
  | powMulti a exp =>
    refine relAll_scalar r' (rel_result r'.scalars (by rw [r'.vectors.view]) (origin_of_keeps r'.vectors (fun p hg => ?_)))
    have hsh : powShares h.vectors a exp = (decide (p.basis = .lagrange) && decide (p.r * MI.norm exp ≠ 0)) := by
      unfold powShares
      rcases r'.vectors.objs a with ⟨_, h2⟩ | ⟨q, o, h1, h2, _, h4⟩
      · unfold Verif.Spec.PPValues.get at hg; rw [h2] at hg; cases hg
      · unfold Verif.Spec.PPValues.get at hg
        rw [h2] at hg
        cases hg
        rw [h1]
        simp only [h4.basis, h4.r]
    rw [hsh]
    exact keeps_powMulti p exp
  | outer a c => exact relAll_vector r' (rel_result r'.vectors (by rw [r'.scalars.view]) (origin_of_keeps r'.scalars (fun p _ => keeps_outer p c)))
  | weakScalar a i empty =>
    exact relAll_scalar r' (rel_result r'.scalars (by rw [r'.scalars.view]) (origin_of_keeps r'.scalars (fun p _ => keeps_weakScalar p i empty)))
  | weakVector a i empty =>
    exact relAll_vector r' (rel_result r'.vectors (by rw [r'.vectors.view]) (origin_of_keeps r'.vectors (fun p _ => keeps_weakVector p i empty)))

theorem results_eq {n : Nat} (S : Search K m T) (ops : List (Op K m n)) :
    ∀ (before : List (Op K m n)), Careful (before ++ ops) →
    ∀ {h : Heap K m n T} {s : Store K m n T}, RelAll (fun l => ∃ op ∈ before, UsesIndex l op) (fun l => ∃ op ∈ before, UsesPoints l op) h s →
      h.results S ops = s.results S ops := by
  induction ops with
  | nil => intro _ _ h s _; rfl
  | cons op ops ih =>
    intro before hc h s r
    obtain ⟨h1, h2⟩ := sim_all S r op (fun l t e ⟨op', ho, hu⟩ => hc.index before l t ops (by rw [e]) op' ho hu)
      (fun l t e ⟨op', ho, hu⟩ => hc.points before l t ops (by rw [e]) op' ho hu) (hc.sets op (by simp))
    simp only [Heap.results, Store.results]
    rw [h2]
    refine congrArg _ (ih (before ++ [op]) (by simpa using hc) ⟨h1.arrays, h1.scalars.mono ?_ ?_, h1.vectors.mono ?_ ?_⟩)
    all_goals
      rintro l (⟨op', ho, hu⟩ | hu)
      · exact ⟨op', by simp [ho], hu⟩
      · exact ⟨op, by simp, hu⟩

/-! ## Evaluation -/

omit [DecidableEq V] in
theorem evalLoop_congr {Tr : Type} {p q : PObj K V m Tr} (ht : p.tau = q.tau) (hc : p.coeff = q.coeff) (hp : p.polys = q.polys) (j : Nat) (x : Fin m → K)
    (l : List (List Nat)) : ∀ (k : Nat) (y : V), evalLoop p j x l k y = evalLoop q j x l k y := by
  induction l with
  | nil => exact fun _ _ => rfl
  | cons nu l ih =>
    intro k y
    unfold evalLoop
    simp only [ht, hc, hp, ih]

omit [DecidableEq V] in
theorem evaluate_congr {Tr : Type} {p q : PObj K V m Tr} (ht : p.tau = q.tau) (hc : p.coeff = q.coeff) (hp : p.polys = q.polys) (hr : p.r = q.r)
    (hs : p.support = q.support) (j : Nat) (x : Fin m → K) : p.evaluateOnSimplex j x = q.evaluateOnSimplex j x := by
  unfold PObj.evaluateOnSimplex
  rw [hs, hr, evalLoop_congr ht hc hp]

/-- The memory grows. -/
structure Grows (M M' : Memory K m) : Prop where
  index : M.index.length ≤ M'.index.length
  points : M.points.length ≤ M'.points.length
  sets : M.sets.length ≤ M'.sets.length

omit [Field K] [LinearOrder K] in
theorem Grows.refl (M : Memory K m) : Grows M M := ⟨le_refl _, le_refl _, le_refl _⟩

omit [Field K] [LinearOrder K] in
theorem Grows.trans {M M' M'' : Memory K m} (h : Grows M M') (h' : Grows M' M'') : Grows M M'' :=
  ⟨h.index.trans h'.index, h.points.trans h'.points, h.sets.trans h'.sets⟩

/-- All references of the object are valid. -/
structure Valid (M : Memory K m) (a : Addr) : Prop where
  triangles : a.triangles < M.index.length
  vertices : a.vertices < M.points.length
  boundary : ∀ b, a.boundary = some b → b < M.index.length
  support : a.support < M.sets.length
  root : a.root < M.sets.length

omit [Field K] [LinearOrder K] in
theorem Valid.mono {M M' : Memory K m} {a : Addr} (h : Valid M a) (g : Grows M M') : Valid M' a :=
  ⟨lt_of_lt_of_le h.triangles g.index, lt_of_lt_of_le h.vertices g.points, fun b hb => lt_of_lt_of_le (h.boundary b hb) g.index,
    lt_of_lt_of_le h.support g.sets, lt_of_lt_of_le h.root g.sets⟩

omit [Field K] [LinearOrder K] in
theorem Valid.boundaryAt {M : Memory K m} {a : Addr} (h : Valid M a) : ∃ b, BoundaryAt M a.boundary b := by
  cases hb : a.boundary with
  | none => exact ⟨none, rfl⟩
  | some l =>
    refine ⟨some (M.index[l]'(h.boundary l hb)), ?_⟩
    unfold BoundaryAt derefOption
    simp only [deref_ok.2 (List.getElem?_eq_getElem (h.boundary l hb))]
    rfl

omit [Field K] [LinearOrder K] [AddCommGroup V] [DecidableEq V] [Module K V] in
/-- What the methods of a valid object see. -/
theorem Valid.now {M : Memory K m} {p : Ref K V m T} (h : Valid M p.addr) : ∃ o, p.now M = .ok o ∧ At M p.addr o ∧ Own p.body o := by
  obtain ⟨b, hb⟩ := h.boundaryAt
  refine ⟨⟨p.body.basis, p.body.cont, p.body.coeff, p.body.tau, M.index[p.addr.triangles]'h.triangles, M.points[p.addr.vertices]'h.vertices, b,
    p.body.keepLast, p.body.r, M.sets[p.addr.support]'h.support, (p.body.tree.1, M.sets[p.addr.root]'h.root), p.body.polys⟩, ?_, ?_, ⟨rfl, rfl, rfl, rfl, rfl, rfl, rfl, rfl⟩⟩
  · exact now_of_at ⟨List.getElem?_eq_getElem _, List.getElem?_eq_getElem _, hb, List.getElem?_eq_getElem _, List.getElem?_eq_getElem _⟩
      ⟨rfl, rfl, rfl, rfl, rfl, rfl, rfl, rfl⟩
  · exact ⟨List.getElem?_eq_getElem _, List.getElem?_eq_getElem _, hb, List.getElem?_eq_getElem _, List.getElem?_eq_getElem _⟩

/-- The references with which a result is constructed are valid. -/
structure ValidOrigin (M : Memory K m) (d : Origin) : Prop where
  triangles : d.triangles < M.index.length
  vertices : d.vertices < M.points.length
  boundary : ∀ b, d.boundary = some b → b < M.index.length
  support : ∀ s, d.support = some s → s < M.sets.length
  root : ∀ s, d.root = some s → s < M.sets.length

/-- The outcome of a step on the sets and the objects: objects and sets remain, and new objects are valid. -/
structure Frame (M : Memory K m) (polys : List (Ref K V m T)) (s : List (List Nat) × List (Ref K V m T)) : Prop where
  objs : ∀ (a : Nat) p, polys[a]? = some p → s.2[a]? = some p
  sets : M.sets.length ≤ s.1.length
  valid : (∀ p ∈ polys, Valid M p.addr) → ∀ p ∈ s.2, Valid { M with sets := s.1 } p.addr

omit [Field K] [LinearOrder K] [AddCommGroup V] [DecidableEq V] [Module K V] in
theorem Frame.same (M : Memory K m) (polys : List (Ref K V m T)) : Frame M polys (M.sets, polys) := ⟨fun _ _ h => h, le_refl _, fun h p hp => h p hp⟩

omit [Field K] [LinearOrder K] [AddCommGroup V] [DecidableEq V] [Module K V] in
theorem frame_result (M : Memory K m) (polys : List (Ref K V m T)) {d : Option Origin} {x : Py (PObj K V m (T × List Nat))}
    (hd : ∀ o d', x = .ok o → d = some d' → (∀ p ∈ polys, Valid M p.addr) → ValidOrigin M d') :
    Frame M polys ((result M.sets polys d x).1, (result M.sets polys d x).2.1) ∧ ∃ s, (result M.sets polys d x).1 = M.sets ++ s := by
  unfold result
  cases x with
  | error e => exact ⟨Frame.same M polys, [], by simp⟩
  | ok o =>
    cases d with
    | none => exact ⟨Frame.same M polys, [], by simp⟩
    | some d =>
      have hd := hd o d rfl rfl
      obtain ⟨dt, dv, db, ds, dr⟩ := d
      cases ds with
      | some s =>
        refine ⟨⟨fun a p h => get_append_some h _, le_refl _, ?_⟩, [], by simp⟩
        intro hv p hp
        obtain ⟨v1, v2, v3, v4, v5⟩ := hd hv
        rcases List.mem_append.1 hp with hp | hp
        · exact hv p hp
        · rw [List.mem_singleton.1 hp]
          refine ⟨v1, v2, v3, v4 s rfl, ?_⟩
          cases dr with
          | none => exact v4 s rfl
          | some k => exact v5 k rfl
      | none =>
        refine ⟨⟨fun a p h => get_append_some h _, by simp, ?_⟩, [o.support], rfl⟩
        intro hv p hp
        obtain ⟨v1, v2, v3, v4, v5⟩ := hd hv
        rcases List.mem_append.1 hp with hp | hp
        · exact (hv p hp).mono ⟨le_refl _, le_refl _, by simp⟩
        · rw [List.mem_singleton.1 hp]
          refine ⟨v1, v2, v3, by simp, ?_⟩
          cases dr with
          | none => simp
          | some k =>
            have := v5 k rfl
            simp only [Option.getD_some, List.length_append, List.length_singleton]
            omega

omit [Field K] [LinearOrder K] [AddCommGroup V] [DecidableEq V] [Module K V] in
theorem validOrigin_of {M : Memory K m} {polys : List (Ref K V m T)} {a : Nat} {sh : Bool} {d : Origin} (h : originOf polys a sh = some d)
    (hv : ∀ p ∈ polys, Valid M p.addr) : ValidOrigin M d := by
  unfold originOf at h
  rw [Option.map_eq_some_iff] at h
  obtain ⟨p, hp, rfl⟩ := h
  have v := hv p (List.mem_of_getElem? hp)
  refine ⟨v.triangles, v.vertices, v.boundary, ?_, ?_⟩
  · intro s hs
    cases sh with
    | false => simp at hs
    | true =>
      simp only [if_true, Option.some.injEq] at hs
      exact hs ▸ v.support
  · intro s hs
    simp only [Option.some.injEq] at hs
    exact hs ▸ v.root

theorem frame_ustep (S : Search K m T) (M : Memory K m) (polys : List (Ref K V m T)) (op : UOp K V m) :
    Frame M polys ((ustep S M polys op).1, (ustep S M polys op).2.1) ∧
      ((∀ a s, op ≠ .editSupport a s) → ∃ s, (ustep S M polys op).1 = M.sets ++ s) := by
  have hres : ∀ {a : Nat} {sh : Bool} {x : Py (PObj K V m (T × List Nat))},
      Frame M polys ((result M.sets polys (originOf polys a sh) x).1, (result M.sets polys (originOf polys a sh) x).2.1) ∧
        ∃ s, (result M.sets polys (originOf polys a sh) x).1 = M.sets ++ s :=
    fun {a sh x} => frame_result M polys (fun o d _ hd hv => validOrigin_of hd hv)
  cases op with
  | new basis cont xs t v r b kl sup =>
    have := frame_result M polys (d := some ⟨t, v, b, none, none⟩) (x := construct S M basis cont xs t v r b kl sup) (by
      intro o d hx hd _
      cases hd
      unfold construct at hx
      cases h1 : deref M.index t with
      | error e => rw [h1] at hx; cases hx
      | ok tt =>
        cases h2 : deref M.points v with
        | error e => rw [h1, h2] at hx; cases hx
        | ok vv =>
          cases h3 : derefOption M.index b with
          | error e => rw [h1, h2, h3] at hx; cases hx
          | ok bb =>
            refine ⟨(List.getElem?_eq_some_iff.1 (deref_ok.1 h1)).1, (List.getElem?_eq_some_iff.1 (deref_ok.1 h2)).1, ?_, ?_, ?_⟩
            · intro l hl
              cases hl
              unfold derefOption at h3
              cases h4 : deref M.index l with
              | error e => simp only [h4] at h3; cases h3
              | ok u => exact (List.getElem?_eq_some_iff.1 (deref_ok.1 h4)).1
            · intro s hs; cases hs
            · intro s hs; cases hs)
    exact ⟨this.1, fun _ => this.2⟩
  | add a b => exact ⟨hres.1, fun _ => hres.2⟩
  | sub a b => exact ⟨hres.1, fun _ => hres.2⟩
  | scale a c => exact ⟨hres.1, fun _ => hres.2⟩
  | div a c => exact ⟨hres.1, fun _ => hres.2⟩
  | elevate a s => exact ⟨hres.1, fun _ => hres.2⟩
  | editSupport a s =>
    refine ⟨?_, fun h => absurd rfl (h a s)⟩
    simp only [ustep, editSupport]
    cases ha : polys[a]? with
    | none => exact Frame.same M polys
    | some p => exact ⟨fun _ _ h => h, by simp, fun hv q hq => (hv q hq).mono ⟨le_refl _, le_refl _, by simp⟩⟩
  | _ => exact ⟨Frame.same M polys, fun _ => ⟨[], by simp [ustep, query]⟩⟩

/-- Objects remain, and all references are valid. -/
structure FrameAll {n : Nat} (h h' : Heap K m n T) : Prop where
  scalars : ∀ (a : Nat) p, h.scalars[a]? = some p → h'.scalars[a]? = some p
  vectors : ∀ (a : Nat) p, h.vectors[a]? = some p → h'.vectors[a]? = some p
  mem : Grows h.mem h'.mem

/-- All references are valid. -/
structure Ok {n : Nat} (h : Heap K m n T) : Prop where
  scalars : ∀ p ∈ h.scalars, Valid h.mem p.addr
  vectors : ∀ p ∈ h.vectors, Valid h.mem p.addr

omit [Field K] [LinearOrder K] in
theorem frame_scalar {n : Nat} {h : Heap K m n T} {u : List (List Nat) × List (Ref K K m T) × Py (Out K K m)}
    (f : Frame h.mem h.scalars (u.1, u.2.1)) :
    FrameAll h (h.scalarResult u).1 ∧ (Ok h → Ok (h.scalarResult u).1) := by
  have g : Grows h.mem (h.scalarResult u).1.mem := ⟨le_refl _, le_refl _, f.sets⟩
  exact ⟨⟨f.objs, fun _ _ e => e, g⟩, fun ok => ⟨f.valid ok.scalars, fun p hp => (ok.vectors p hp).mono g⟩⟩

omit [Field K] [LinearOrder K] in
theorem frame_vector {n : Nat} {h : Heap K m n T} {u : List (List Nat) × List (Ref K (Fin n → K) m T) × Py (Out K (Fin n → K) m)}
    (f : Frame h.mem h.vectors (u.1, u.2.1)) :
    FrameAll h (h.vectorResult u).1 ∧ (Ok h → Ok (h.vectorResult u).1) := by
  have g : Grows h.mem (h.vectorResult u).1.mem := ⟨le_refl _, le_refl _, f.sets⟩
  exact ⟨⟨fun _ _ e => e, f.objs, g⟩, fun ok => ⟨fun p hp => (ok.scalars p hp).mono g, f.valid ok.vectors⟩⟩

omit [Field K] [LinearOrder K] in
theorem Ok.of_grows {n : Nat} {h h' : Heap K m n T} (ok : Ok h) (hs : h'.scalars = h.scalars) (hv : h'.vectors = h.vectors) (g : Grows h.mem h'.mem) : Ok h' :=
  ⟨fun p hp => (ok.scalars p (hs ▸ hp)).mono g, fun p hp => (ok.vectors p (hv ▸ hp)).mono g⟩

/-- The outcome of a step from a state with valid references. -/
structure Good {n : Nat} (op : Op K m n) (h h' : Heap K m n T) : Prop where
  frame : FrameAll h h'
  ok : Ok h'
  sets : ¬ EditsSupport op → ∃ s, h'.mem.sets = h.mem.sets ++ s

omit [Field K] [LinearOrder K] in
theorem good_scalar {n : Nat} {W : Type} {h : Heap K m n T} (ok : Ok h) (op : Op K m n) {polys : List (Ref K W m T)} (hv : ∀ p ∈ polys, Valid h.mem p.addr)
    {a : Nat} {sh : Bool} {x : Py (PObj K K m (T × List Nat))} :
    Good op h (h.scalarResult (result h.mem.sets h.scalars (originOf polys a sh) x)).1 := by
  obtain ⟨f, g⟩ := frame_result h.mem h.scalars (d := originOf polys a sh) (x := x) (fun o d _ hd _ => validOrigin_of hd hv)
  exact ⟨(frame_scalar f).1, (frame_scalar f).2 ok, fun _ => g⟩

omit [Field K] [LinearOrder K] in
theorem good_vector {n : Nat} {W : Type} {h : Heap K m n T} (ok : Ok h) (op : Op K m n) {polys : List (Ref K W m T)} (hv : ∀ p ∈ polys, Valid h.mem p.addr)
    {a : Nat} {sh : Bool} {x : Py (PObj K (Fin n → K) m (T × List Nat))} :
    Good op h (h.vectorResult (result h.mem.sets h.vectors (originOf polys a sh) x)).1 := by
  obtain ⟨f, g⟩ := frame_result h.mem h.vectors (d := originOf polys a sh) (x := x) (fun o d _ hd _ => validOrigin_of hd hv)
  exact ⟨(frame_vector f).1, (frame_vector f).2 ok, fun _ => g⟩

omit [Field K] [LinearOrder K] in
theorem good_memory {n : Nat} {h h' : Heap K m n T} (ok : Ok h) (op : Op K m n) (hs : h'.scalars = h.scalars) (hv : h'.vectors = h.vectors)
    (g : Grows h.mem h'.mem) (e : h'.mem.sets = h.mem.sets) : Good op h h' :=
  ⟨⟨fun _ _ e => by rw [hs]; exact e, fun _ _ e => by rw [hv]; exact e, g⟩, ok.of_grows hs hv g, fun _ => ⟨[], by simp [e]⟩⟩

theorem good_step {n : Nat} (S : Search K m T) {h : Heap K m n T} (ok : Ok h) (op : Op K m n) : Good op h (h.step S op).1 := by
  cases op with
  | indexArray t => exact good_memory ok _ rfl rfl ⟨by simp [Heap.step], le_refl _, le_refl _⟩ rfl
  | pointArray t => exact good_memory ok _ rfl rfl ⟨le_refl _, by simp [Heap.step], le_refl _⟩ rfl
  | writeIndex l t =>
    simp only [Heap.step]
    split
    · exact good_memory ok _ rfl rfl ⟨by simp, le_refl _, le_refl _⟩ rfl
    · exact good_memory ok _ rfl rfl (Grows.refl _) rfl
  | writePoints l t =>
    simp only [Heap.step]
    split
    · exact good_memory ok _ rfl rfl ⟨le_refl _, by simp, le_refl _⟩ rfl
    · exact good_memory ok _ rfl rfl (Grows.refl _) rfl
  | scalar op =>
    obtain ⟨f, g⟩ := frame_ustep S h.mem h.scalars op
    exact ⟨(frame_scalar f).1, (frame_scalar f).2 ok, fun he => g (fun a s e => he (Or.inl ⟨a, s, by rw [e]⟩))⟩
  | vector op =>
    obtain ⟨f, g⟩ := frame_ustep S h.mem h.vectors op
    exact ⟨(frame_vector f).1, (frame_vector f).2 ok, fun he => g (fun a s e => he (Or.inr ⟨a, s, by rw [e]⟩))⟩
  | mul a b => exact good_scalar ok _ ok.scalars
  | pow a b => exact good_scalar ok _ ok.scalars
  | component a b => exact good_scalar ok _ ok.vectors
  | powMulti a b => exact good_scalar ok _ ok.vectors
  | outer a b => exact good_vector ok _ ok.scalars
  | weakScalar a i e => exact good_scalar ok _ ok.scalars
  | weakVector a i e => exact good_vector ok _ ok.vectors

omit [Field K] [LinearOrder K] in
theorem ok_empty {n : Nat} : Ok (Heap.empty : Heap K m n T) := ⟨by simp [Heap.empty], by simp [Heap.empty]⟩

theorem good_after {n : Nat} (S : Search K m T) (ops : List (Op K m n)) : ∀ {h : Heap K m n T}, Ok h →
    FrameAll h (h.after S ops) ∧ Ok (h.after S ops) ∧ ((∀ op ∈ ops, ¬ EditsSupport op) → ∃ s, (h.after S ops).mem.sets = h.mem.sets ++ s) := by
  induction ops with
  | nil => exact fun ok => ⟨⟨fun _ _ e => e, fun _ _ e => e, Grows.refl _⟩, ok, fun _ => ⟨[], by simp [Heap.after]⟩⟩
  | cons op ops ih =>
    intro h ok
    have g := good_step S ok op
    obtain ⟨f, o, s⟩ := ih g.ok
    refine ⟨⟨fun a p e => f.scalars a p (g.frame.scalars a p e), fun a p e => f.vectors a p (g.frame.vectors a p e), g.frame.mem.trans f.mem⟩, o, fun he => ?_⟩
    obtain ⟨s1, e1⟩ := g.sets (he op (by simp))
    obtain ⟨s2, e2⟩ := s (fun op' ho => he op' (by simp [ho]))
    exact ⟨s1 ++ s2, by
      show ((h.step S op).1.after S ops).mem.sets = _
      rw [e2, e1, List.append_assoc]⟩

theorem after_append {n : Nat} (S : Search K m T) (h : Heap K m n T) (ops more : List (Op K m n)) :
    h.after S (ops ++ more) = (h.after S ops).after S more := by simp [Heap.after]

/-- What the methods of an object see before and after operations that do not change its sets. -/
theorem view_fixed {M M' : Memory K m} {polys polys' : List (Ref K V m T)} (hp : ∀ (a : Nat) p, polys[a]? = some p → polys'[a]? = some p)
    (hv : ∀ p ∈ polys, Valid M p.addr) (g : Grows M M') {a : Nat} (ha : a < polys.length) :
    ∃ p p', view M polys a = .ok p ∧ view M' polys' a = .ok p' ∧ p.tau = p'.tau ∧ p.coeff = p'.coeff ∧ p.polys = p'.polys ∧ p.r = p'.r ∧
      ((∃ s, M'.sets = M.sets ++ s) → p.support = p'.support) := by
  have h1 : polys[a]? = some polys[a] := List.getElem?_eq_getElem ha
  have v := hv _ (List.getElem_mem ha)
  obtain ⟨o, n1, at1, own1⟩ := v.now (p := polys[a])
  obtain ⟨o', n2, at2, own2⟩ := (v.mono g).now (p := polys[a])
  refine ⟨o, o', ?_, ?_, ?_⟩
  · unfold view; rw [deref_ok.2 h1]; exact n1
  · unfold view; rw [deref_ok.2 (hp a _ h1)]; exact n2
  · refine ⟨own1.tau.symm.trans own2.tau, own1.coeff.symm.trans own2.coeff, own1.polys.symm.trans own2.polys, own1.r.symm.trans own2.r, ?_⟩
    rintro ⟨s, e⟩
    have h3 := at2.support
    rw [e, get_append_some at1.support s] at h3
    exact Option.some.inj h3

theorem restrict_congr {Tr : Type} {p q : PObj K V m Tr} (hb : p.basis = q.basis) (ht : p.tau = q.tau) (hc : p.coeff = q.coeff) (hr : p.r = q.r)
    (hs : p.support = q.support) (h1 : p.triangles = q.triangles) (h2 : p.vertices = q.vertices) (j : Nat) :
    p.restrictToSimplex j = q.restrictToSimplex j := by
  unfold PObj.restrictToSimplex
  rw [hb, ht, hc, hr, hs, h1, h2]

omit [Module K V] in
/-- The attributes that the constructor computes without the vertices do not depend on them. -/
theorem new_twice {mk mk' : List Nat → Py (T × List Nat)} {b : Basis} {cont : Bool} {xs : List V} {t : List (List Nat)} {v w : List (Fin m → K)} {r : Nat}
    {bd : Option (List (List Nat))} {kl : Bool} {sup : Option (List Nat)} {p q : PObj K V m (T × List Nat)}
    (hp : PObj.new mk b cont xs t v r none bd kl sup none none = .ok p) (hq : PObj.new mk' b cont xs t w r none bd kl sup none none = .ok q) :
    p.basis = q.basis ∧ p.tau = q.tau ∧ p.coeff = q.coeff ∧ p.r = q.r ∧ p.support = q.support ∧ p.triangles = q.triangles ∧ q.vertices = w ∧
      p.boundary = q.boundary := by
  have key : ∀ {α : Type} {x : Py α} {f : α → Py (PObj K V m (T × List Nat))} {o : PObj K V m (T × List Nat)},
      (x >>= f) = .ok o → ∃ a, x = .ok a ∧ f a = .ok o := by
    intro α x f o hx
    cases x with
    | error e => cases hx
    | ok a => exact ⟨a, rfl, hx⟩
  unfold PObj.new at hp hq
  obtain ⟨t1, e1, hp⟩ := key hp
  obtain ⟨t2, e2, hq⟩ := key hq
  obtain rfl : t1 = t2 := Except.ok.inj (e1.symm.trans e2)
  obtain ⟨_, _, hp⟩ := key hp
  obtain ⟨_, _, hp⟩ := key hp
  obtain ⟨s1, e1, hp⟩ := key hp
  obtain ⟨_, _, hp⟩ := key hp
  obtain ⟨_, _, hp⟩ := key hp
  obtain ⟨_, _, hq⟩ := key hq
  obtain ⟨_, _, hq⟩ := key hq
  obtain ⟨s2, e2, hq⟩ := key hq
  obtain ⟨_, _, hq⟩ := key hq
  obtain ⟨_, _, hq⟩ := key hq
  obtain rfl : s1 = s2 := Except.ok.inj (e1.symm.trans e2)
  cases hp
  cases hq
  exact ⟨rfl, rfl, rfl, rfl, rfl, rfl, rfl, rfl⟩

end Verif.PPHeap
