import Verif.Model.FunctionTraits
/-! C68: `function_traits` describes the function it is given. -/
set_option autoImplicit false
namespace Rtti.Props
open Rtti.FnTraits
variable {X : Type}

/-- the object parameter a call of the function has, [over.match.funcs]: without a ref-qualifier an lvalue -/
private def objectParam (f : Fn X) : List (Param X) :=
  f.cls.toList.map fun c => .object c f.const f.volatile (if f.ref = .rref then .rref else .lref)

/-- functions as C++ has them: only member functions are qualified -/
def WellFormed (f : Fn X) : Prop := f.cls = none → f.const = false ∧ f.volatile = false ∧ f.ref = .none

/-- the traits say what the function is -/
def Describes (f : Fn X) (t : FTraits X) : Prop :=
  t.classType = f.cls ∧ t.isConst = f.const ∧ t.isVolatile = f.volatile ∧ (t.isLrefthis = true ↔ f.ref = .lref) ∧
    (t.isRrefthis = true ↔ f.ref = .rref) ∧ t.isNoexcept = f.noexc ∧ t.result = f.res ∧ t.args = f.args ∧
    t.base = (f.args, f.noexc) ∧ t.uniform = (objectParam f ++ f.args.map .arg, f.noexc)

/-- If there are traits, they say what the function is. -/
theorem C68_describes (f : Fn X) (t : FTraits X) (h : traits (.pointer f) = some t) : Describes f t := by
  obtain ⟨c, k, v, r, n, res, as⟩ := f
  rcases c with _ | c <;> cases k <;> cases v <;> cases r <;> cases n <;>
    simp only [traits, helper, Option.some.injEq, reduceCtorEq] at h <;> subst h <;>
    simp [Describes, free, freeNoexcept, member, memberNoexcept, memberConst, memberConstNoexcept, memberVolatile, memberConstVolatile, objectParam]

/-- The traits of an object with an `operator()` are those of that member function, and there are none if that has none. -/
theorem C68_functor (c : X) (f : Fn X) (hc : f.cls = some c) :
    (∀ t, traits (.functor c f) = some t → Describes f t) ∧
    ((traits (.functor c f)).isSome = true ↔ ¬ (f.noexc = true ∧ (f.ref ≠ .none ∨ f.volatile = true))) := by
  refine ⟨fun t h => C68_describes f t h, ?_⟩
  obtain ⟨_, k, v, r, n, res, as⟩ := f
  cases hc
  cases k <;> cases v <;> cases r <;> cases n <;> simp [traits, helper]

example : ∃ t : FTraits Nat, traits (.functor 7 ⟨some 7, true, false, .none, true, 0, [1, 2]⟩) = some t ∧
    t.args = [1, 2] ∧ t.base = ([1, 2], true) := ⟨_, rfl, rfl, rfl⟩

/-- Exactly the `noexcept` member functions with a ref-qualifier or `volatile` have none: the program does not compile. -/
theorem C68_supported (f : Fn X) (hf : WellFormed f) :
    (traits (.pointer f)).isSome = true ↔ ¬ (f.noexc = true ∧ (f.ref ≠ .none ∨ f.volatile = true)) := by
  obtain ⟨c, k, v, r, n, res, as⟩ := f
  rcases c with _ | c <;> cases k <;> cases v <;> cases r <;> cases n <;> simp [traits, helper, WellFormed] at hf ⊢

/-- C68 is false: `void (C::*)() & noexcept` and `std::function` have no traits. -/
theorem C68_false :
    traits (.pointer ⟨some 1, false, false, .lref, true, 0, []⟩ : Callable Nat) = none ∧ traits (.stdFunction 0 [1] : Callable Nat) = none := ⟨rfl, rfl⟩

/-- A method is invoked on an object exactly if it is a member function. -/
theorem C68_invoker (isVoid : X → Bool) (f : Fn X) (t : FTraits X) (h : traits (.pointer f) = some t) :
    (tag isVoid t = .voidStatic ↔ f.cls = none ∧ isVoid f.res = true) ∧ (tag isVoid t = .returnStatic ↔ f.cls = none ∧ isVoid f.res = false) ∧
    (tag isVoid t = .voidMember ↔ f.cls ≠ none ∧ isVoid f.res = true) ∧ (tag isVoid t = .returnMember ↔ f.cls ≠ none ∧ isVoid f.res = false) := by
  obtain ⟨h1, _, _, _, _, _, h7, _⟩ := C68_describes f t h
  unfold tag
  rw [h1, h7]
  cases f.cls <;> cases isVoid f.res <;> simp

/-- A lambda is taken for a member function of its own closure class: it can only be called on an object of that class,
    which becomes its first parameter. -/
theorem C68_functor_false :
    ∃ t : FTraits Nat, traits (.functor 7 ⟨some 7, true, false, .none, false, 0, [1]⟩) = some t ∧
      tag (fun x => x = 0) t = .voidMember ∧ t.uniform.1 = [.object 7 true false .lref, .arg 1] := ⟨_, rfl, rfl, rfl⟩

example : ∃ t : FTraits Nat, traits (.pointer ⟨some 3, true, true, .rref, false, 0, [1, 2]⟩) = some t ∧
    t.uniform = ([.object 3 true true .rref, .arg 1, .arg 2], false) ∧ t.isRrefthis = true := ⟨_, rfl, rfl, rfl⟩
example : WellFormed (⟨some 3, true, true, .rref, false, 0, [1, 2]⟩ : Fn Nat) := by intro h; cases h

end Rtti.Props
