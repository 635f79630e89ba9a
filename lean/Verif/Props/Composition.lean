import Verif.Model.Composition
/-!
# C74: composition of functions
-/

namespace Verif.Composition
open Verif

variable {α : Type}

/-- A function of one variable: one parameter that is not `*args`, or a function whose signature is unknown. -/
def TakesOne (f : Fn α) : Prop := f.sig = none ∨ ∃ k, f.sig = some [k] ∧ k ≠ .varPositional

/-- A function of several variables: at least two parameters, or `*args`. -/
def TakesSeveral (f : Fn α) : Prop := f.sig = some [.varPositional] ∨ ∃ a b l, f.sig = some (a :: b :: l)

/-- A function without parameters. -/
def TakesNone (f : Fn α) : Prop := f.sig = some []

theorem univ_one (f : Fn α) (h : TakesOne f) : isUnivariateFunction f = .ok true := by
  unfold isUnivariateFunction
  rcases h with h | ⟨k, h, hk⟩
  · rw [h]
  · rw [h]
    simp [getE, hk, pyAssert, Py.pure_eq, Py.bind_ok]

theorem univ_several (f : Fn α) (h : TakesSeveral f) : isUnivariateFunction f = .ok false := by
  unfold isUnivariateFunction
  rcases h with h | ⟨a, b, l, h⟩
  · rw [h]
    simp [getE, pyAssert, Py.pure_eq, Py.bind_ok]
  · rw [h]
    simp

theorem univ_none (f : Fn α) (h : TakesNone f) : isUnivariateFunction f = .error .assertion := by
  unfold isUnivariateFunction
  rw [show f.sig = some [] from h]
  rfl

/-- Every callable is of exactly one of the three kinds. -/
theorem kinds (f : Fn α) : TakesOne f ∨ TakesSeveral f ∨ TakesNone f := by
  obtain ⟨sig, call⟩ := f
  match sig with
  | none => exact Or.inl (Or.inl rfl)
  | some [] => exact Or.inr (Or.inr rfl)
  | some [k] =>
    by_cases hk : k = .varPositional
    · subst hk; exact Or.inr (Or.inl (Or.inl rfl))
    · exact Or.inl (Or.inr ⟨k, rfl, hk⟩)
  | some (a :: b :: l) => exact Or.inr (Or.inl (Or.inr ⟨a, b, l, rfl⟩))

/-- **C74** Two functions of one variable: `composition(f, g)(x)` is `f(g(x))`, including the exceptions of `f` and `g`; any other number of
arguments is a TypeError. The result is a function of one variable. -/
theorem C74_one_one (f g : Fn α) (hf : TakesOne f) (hg : TakesOne g) :
    ∃ h, composition f g = .ok h ∧ TakesOne h ∧ (∀ x, h.call [x] = (g.call [x] >>= fun y => f.call [y])) ∧
      ∀ args, args.length ≠ 1 → h.call args = .error .type := by
  refine ⟨unary fun x => g.call [x] >>= fun y => f.call [y], ?_, Or.inr ⟨_, rfl, by decide⟩, fun x => rfl, fun args ha => ?_⟩
  · unfold composition
    rw [univ_one f hf, univ_one g hg]
    rfl
  · match args, ha with
    | [], _ => rfl
    | [_], h => exact absurd rfl h
    | _ :: _ :: _, _ => rfl

/-- **C74** A function `f` of several variables after a function of one variable: `composition(f, g)(x)` is `f(*g(x))`: when `g(x)` is a sequence,
`f` gets its members as arguments; when `g(x)` is a number it is a TypeError, also when `f` could be called with one argument because its other
parameters have default values. -/
theorem C74_several_one (f g : Fn α) (hf : TakesSeveral f) (hg : TakesOne g) :
    ∃ h, composition f g = .ok h ∧ TakesOne h ∧ (∀ x ys, g.call [x] = .ok (.seq ys) → h.call [x] = f.call ys) ∧
      (∀ x y, g.call [x] = .ok (.num y) → h.call [x] = .error .type) ∧ (∀ x e, g.call [x] = .error e → h.call [x] = .error e) ∧
      ∀ args, args.length ≠ 1 → h.call args = .error .type := by
  refine ⟨unary fun x => g.call [x] >>= fun y => unpack y >>= fun ys => f.call ys, ?_, Or.inr ⟨_, rfl, by decide⟩, fun x ys h => ?_, fun x y h => ?_,
    fun x e h => ?_, fun args ha => ?_⟩
  · unfold composition
    rw [univ_several f hf, univ_one g hg]
    rfl
  · show (g.call [x] >>= fun y => unpack y >>= fun ys => f.call ys) = _
    rw [h]
    rfl
  · show (g.call [x] >>= fun y => unpack y >>= fun ys => f.call ys) = _
    rw [h]
    rfl
  · show (g.call [x] >>= fun y => unpack y >>= fun ys => f.call ys) = _
    rw [h]
    rfl
  · match args, ha with
    | [], _ => rfl
    | [_], h => exact absurd rfl h
    | _ :: _ :: _, _ => rfl

/-- **C74** A function of one variable after a function of several variables: `composition(f, g)(x₁, …, xₙ)` is `f(g(x₁, …, xₙ))`. -/
theorem C74_one_several (f g : Fn α) (hf : TakesOne f) (hg : TakesSeveral g) :
    ∃ h, composition f g = .ok h ∧ TakesSeveral h ∧ ∀ args, h.call args = (g.call args >>= fun y => f.call [y]) := by
  refine ⟨variadic fun x => g.call x >>= fun y => f.call [y], ?_, Or.inl rfl, fun x => rfl⟩
  unfold composition
  rw [univ_one f hf, univ_several g hg]
  rfl

/-- **C74** Two functions of several variables: `composition(f, g)(x₁, …, xₙ)` is `f(y₁, …, yₘ)` where `g(x₁, …, xₙ) = (y₁, …, yₘ)`. -/
theorem C74_several_several (f g : Fn α) (hf : TakesSeveral f) (hg : TakesSeveral g) :
    ∃ h, composition f g = .ok h ∧ TakesSeveral h ∧ (∀ args ys, g.call args = .ok (.seq ys) → h.call args = f.call ys) ∧
      (∀ args y, g.call args = .ok (.num y) → h.call args = .error .type) ∧ ∀ args e, g.call args = .error e → h.call args = .error e := by
  refine ⟨variadic fun x => g.call x >>= fun y => unpack y >>= fun ys => f.call ys, ?_, Or.inl rfl, fun x ys h => ?_, fun x y h => ?_, fun x e h => ?_⟩
  · unfold composition
    rw [univ_several f hf, univ_several g hg]
    rfl
  all_goals
    show (g.call x >>= fun y => unpack y >>= fun ys => f.call ys) = _
    rw [h]
    rfl

/-- **C74** A function without parameters cannot be composed. -/
theorem C74_none (f g : Fn α) (h : TakesNone f ∨ TakesNone g) : composition f g = .error .assertion := by
  unfold composition
  rcases kinds f with hf | hf | hf
  · rw [univ_one f hf]
    rcases h with h | h
    · have := univ_one f hf
      rw [univ_none f h] at this
      cases this
    · rw [univ_none g h]; rfl
  · rw [univ_several f hf]
    rcases h with h | h
    · have := univ_several f hf
      rw [univ_none f h] at this
      cases this
    · rw [univ_none g h]; rfl
  · rw [univ_none f hf]; rfl

theorem bind_assoc' {β γ δ : Type} (a : Py β) (b : β → Py γ) (c : γ → Py δ) : (a >>= b) >>= c = a >>= fun x => b x >>= c := by
  cases a <;> rfl

/-- **C74** Composition is associative for all functions: either both ways of composing `f`, `g` and `h` fail with the same exception, or both give
functions that agree on all arguments, also where they raise exceptions. -/
theorem C74_associative (f g h : Fn α) :
    (composition f g >>= fun fg => composition fg h) = .error .assertion ∧ (composition g h >>= fun gh => composition f gh) = .error .assertion ∨
    ∃ l r, (composition f g >>= fun fg => composition fg h) = .ok l ∧ (composition g h >>= fun gh => composition f gh) = .ok r ∧
      l.sig = r.sig ∧ ∀ args, l.call args = r.call args := by
  rcases kinds f with hf | hf | hf
  · rcases kinds g with hg | hg | hg
    · rcases kinds h with hh | hh | hh
      all_goals
        unfold composition
        simp only [univ_one f hf, univ_one g hg, Py.bind_ok]
        first
          | rw [univ_none h hh]; exact Or.inl ⟨rfl, rfl⟩
          | skip
      · rw [univ_one h hh]
        refine Or.inr ⟨_, _, rfl, rfl, rfl, fun args => ?_⟩
        match args with
        | [] => rfl
        | [x] => exact (bind_assoc' _ _ _).symm
        | _ :: _ :: _ => rfl
      · rw [univ_several h hh]
        exact Or.inr ⟨_, _, rfl, rfl, rfl, fun args => (bind_assoc' _ _ _).symm⟩
    · rcases kinds h with hh | hh | hh
      all_goals
        unfold composition
        simp only [univ_one f hf, univ_several g hg, Py.bind_ok]
        first
          | rw [univ_none h hh]; exact Or.inl ⟨rfl, rfl⟩
          | skip
      · rw [univ_one h hh]
        refine Or.inr ⟨_, _, rfl, rfl, rfl, fun args => ?_⟩
        match args with
        | [] => rfl
        | [x] =>
          refine Eq.symm ((bind_assoc' _ _ _).trans ?_)
          refine congrArg _ (funext fun y => bind_assoc' _ _ _)
        | _ :: _ :: _ => rfl
      · rw [univ_several h hh]
        refine Or.inr ⟨_, _, rfl, rfl, rfl, fun args => ?_⟩
        refine Eq.symm ((bind_assoc' _ _ _).trans ?_)
        refine congrArg _ (funext fun y => bind_assoc' _ _ _)
    · refine Or.inl ⟨?_, ?_⟩
      · rw [C74_none f g (Or.inr hg)]; rfl
      · rw [C74_none g h (Or.inl hg)]; rfl
  · rcases kinds g with hg | hg | hg
    · rcases kinds h with hh | hh | hh
      all_goals
        unfold composition
        simp only [univ_several f hf, univ_one g hg, Py.bind_ok]
        first
          | rw [univ_none h hh]; exact Or.inl ⟨rfl, rfl⟩
          | skip
      · rw [univ_one h hh]
        refine Or.inr ⟨_, _, rfl, rfl, rfl, fun args => ?_⟩
        match args with
        | [] => rfl
        | [x] => exact (bind_assoc' _ _ _).symm
        | _ :: _ :: _ => rfl
      · rw [univ_several h hh]
        exact Or.inr ⟨_, _, rfl, rfl, rfl, fun args => (bind_assoc' _ _ _).symm⟩
    · rcases kinds h with hh | hh | hh
      all_goals
        unfold composition
        simp only [univ_several f hf, univ_several g hg, Py.bind_ok]
        first
          | rw [univ_none h hh]; exact Or.inl ⟨rfl, rfl⟩
          | skip
      · rw [univ_one h hh]
        refine Or.inr ⟨_, _, rfl, rfl, rfl, fun args => ?_⟩
        match args with
        | [] => rfl
        | [x] =>
          refine Eq.symm ((bind_assoc' _ _ _).trans ?_)
          refine congrArg _ (funext fun y => bind_assoc' _ _ _)
        | _ :: _ :: _ => rfl
      · rw [univ_several h hh]
        refine Or.inr ⟨_, _, rfl, rfl, rfl, fun args => ?_⟩
        refine Eq.symm ((bind_assoc' _ _ _).trans ?_)
        refine congrArg _ (funext fun y => bind_assoc' _ _ _)
    · refine Or.inl ⟨?_, ?_⟩
      · rw [C74_none f g (Or.inr hg)]; rfl
      · rw [C74_none g h (Or.inl hg)]; rfl
  · refine Or.inl ⟨?_, ?_⟩
    · rw [C74_none f g (Or.inl hf)]; rfl
    · rcases hgh : composition g h with e | gh
      · rw [Py.bind_error]
        rcases kinds g with hg | hg | hg
        · rcases kinds h with hh | hh | hh
          · obtain ⟨_, h1, -⟩ := C74_one_one g h hg hh; rw [h1] at hgh; cases hgh
          · obtain ⟨_, h1, -⟩ := C74_one_several g h hg hh; rw [h1] at hgh; cases hgh
          · rw [← hgh, C74_none g h (Or.inr hh)]
        · rcases kinds h with hh | hh | hh
          · obtain ⟨_, h1, -⟩ := C74_several_one g h hg hh; rw [h1] at hgh; cases hgh
          · obtain ⟨_, h1, -⟩ := C74_several_several g h hg hh; rw [h1] at hgh; cases hgh
          · rw [← hgh, C74_none g h (Or.inr hh)]
        · rw [← hgh, C74_none g h (Or.inl hg)]
      · rw [Py.bind_ok, C74_none f gh (Or.inl hf)]

/-- `lambda x, y: x + y` and `lambda *x: (x[1], x[0] * x[0])` on two arguments. -/
def exSum : Fn Int where
  sig := some [.positionalOrKeyword, .positionalOrKeyword]
  call := fun
    | [.num x, .num y] => .ok (.num (x + y))
    | _ => .error .type

def exSwap : Fn Int where
  sig := some [.varPositional]
  call := fun
    | [.num x, .num y] => .ok (.seq [.num y, .num (x * x)])
    | _ => .error .index

example : (composition exSum exSwap >>= fun h => h.call [.num 3, .num 4]) = .ok (.num 13) := by
  obtain ⟨h, h1, -, h2, -⟩ := C74_several_several exSum exSwap (Or.inr ⟨_, _, _, rfl⟩) (Or.inl rfl)
  rw [h1, Py.bind_ok, h2 _ [.num 4, .num 9] rfl]
  rfl

/-- `lambda x, n=2: x ** n` after the identity: a TypeError, although `f(g(x))` is defined for every number. -/
def exDefault : Fn Int where
  sig := some [.positionalOrKeyword, .positionalOrKeyword]
  call := fun
    | [.num x] => .ok (.num (x * x))
    | [.num x, .num n] => .ok (.num (x ^ n.toNat))
    | _ => .error .type

def exId : Fn Int where
  sig := some [.positionalOrKeyword]
  call := fun
    | [x] => .ok x
    | _ => .error .type

/-- **C74** Without the reading of the signature the composition would be defined: `f(g(x))` is a value for every number `x`, but
`composition(f, g)(x)` raises TypeError. -/
theorem C74_default_parameters : ∃ h, composition exDefault exId = .ok h ∧ ∀ x : Int,
    (exId.call [.num x] >>= fun y => exDefault.call [y]) = .ok (.num (x * x)) ∧ h.call [.num x] = .error .type := by
  obtain ⟨h, h1, -, -, h2, -⟩ := C74_several_one exDefault exId (Or.inr ⟨_, _, _, rfl⟩) (Or.inr ⟨_, rfl, by decide⟩)
  exact ⟨h, h1, fun x => ⟨rfl, h2 _ x rfl⟩⟩

end Verif.Composition
