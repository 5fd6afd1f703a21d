import Verif.Model.CType
/-
`mpl::function_traits` (/repo/include/rtti/function_traits.h:11-176) and the choice of the invoker made with it
(`method_invoker_tag`, /repo/include/rtti/metadefine.h:66-74). One definition per specialisation; a specialisation that
derives from another takes its members and overrides those it declares. A function type for which there is no
specialisation falls to the primary template, which needs an `operator()`: `none`, the program does not compile.
Types are taken as they are spelled (`X`).
-/
set_option autoImplicit false
namespace Rtti.FnTraits
variable {X : Type}

/-- `R (*)(Args...)` or `R (C::*)(Args...)` with its qualifiers -/
structure Fn (X : Type) where
  cls : Option X
  const : Bool
  volatile : Bool
  ref : Ref
  noexc : Bool
  res : X
  args : List X
deriving DecidableEq, Repr

/-- a parameter of `uniform_signature`: the object (class, const, volatile, reference) or an argument -/
inductive Param (X : Type)
  | object (c : X) (const volatile : Bool) (ref : Ref)
  | arg (x : X)
deriving DecidableEq, Repr

/-- members of `function_traits_helper` -/
structure FTraits (X : Type) where
  classType : Option X
  isConst : Bool
  isVolatile : Bool
  isLrefthis : Bool
  isRrefthis : Bool
  isNoexcept : Bool
  result : X
  args : List X
  /-- parameters and `noexcept` of `base_signature` -/
  base : List X × Bool
  /-- parameters and `noexcept` of `uniform_signature` -/
  uniform : List (Param X) × Bool
deriving DecidableEq, Repr

/-- `R(*)(Args...)`, lines 17-37 -/
def free (res : X) (args : List X) : FTraits X :=
  { classType := none, isConst := false, isVolatile := false, isLrefthis := false, isRrefthis := false, isNoexcept := false,
    result := res, args := args, base := (args, false), uniform := (args.map .arg, false) }

/-- `R(*)(Args...) noexcept`, lines 39-48 -/
def freeNoexcept (res : X) (args : List X) : FTraits X :=
  { free res args with isNoexcept := true, base := (args, true), uniform := (args.map .arg, true) }

/-- `R(C::*)(Args...)`, lines 50-56 -/
def member (c res : X) (args : List X) : FTraits X :=
  { free res args with classType := some c, uniform := (.object c false false .lref :: args.map .arg, false) }

/-- `R(C::*)(Args...) noexcept`, lines 58-66 -/
def memberNoexcept (c res : X) (args : List X) : FTraits X :=
  { freeNoexcept res args with classType := some c, uniform := (.object c false false .lref :: args.map .arg, true) }

/-- `R(C::*)(Args...) const`, lines 83-90 -/
def memberConst (c res : X) (args : List X) : FTraits X :=
  { free res args with
    classType := some c, isConst := true, uniform := (.object c true false .lref :: args.map .arg, false) }

/-- `R(C::*)(Args...) const noexcept`, lines 92-101 -/
def memberConstNoexcept (c res : X) (args : List X) : FTraits X :=
  { freeNoexcept res args with
    classType := some c, isConst := true, uniform := (.object c true false .lref :: args.map .arg, true) }

/-- `R(C::*)(Args...) volatile`, lines 118-125 -/
def memberVolatile (c res : X) (args : List X) : FTraits X :=
  { free res args with
    classType := some c, isVolatile := true, uniform := (.object c false true .lref :: args.map .arg, false) }

/-- `R(C::*)(Args...) const volatile`, lines 142-150 -/
def memberConstVolatile (c res : X) (args : List X) : FTraits X :=
  { free res args with
    classType := some c, isConst := true, isVolatile := true
    uniform := (.object c true true .lref :: args.map .arg, false) }

/-- `function_traits_helper<F>` for a pointer to function or member function, lines 17-165 -/
def helper (f : Fn X) : Option (FTraits X) :=
  match f with
  | ⟨none, false, false, .none, false, r, as⟩ => some (free r as)
  | ⟨none, false, false, .none, true, r, as⟩ => some (freeNoexcept r as)
  | ⟨some c, false, false, .none, false, r, as⟩ => some (member c r as)
  | ⟨some c, false, false, .none, true, r, as⟩ => some (memberNoexcept c r as)
  -- lines 68-81
  | ⟨some c, false, false, .lref, false, r, as⟩ => some { member c r as with isLrefthis := true }
  | ⟨some c, false, false, .rref, false, r, as⟩ =>
    some { member c r as with isRrefthis := true, uniform := (.object c false false .rref :: as.map .arg, false) }
  | ⟨some c, true, false, .none, false, r, as⟩ => some (memberConst c r as)
  | ⟨some c, true, false, .none, true, r, as⟩ => some (memberConstNoexcept c r as)
  -- lines 103-116
  | ⟨some c, true, false, .lref, false, r, as⟩ => some { memberConst c r as with isLrefthis := true }
  | ⟨some c, true, false, .rref, false, r, as⟩ =>
    some { memberConst c r as with isRrefthis := true, uniform := (.object c true false .rref :: as.map .arg, false) }
  | ⟨some c, false, true, .none, false, r, as⟩ => some (memberVolatile c r as)
  -- lines 127-140
  | ⟨some c, false, true, .lref, false, r, as⟩ => some { memberVolatile c r as with isLrefthis := true }
  | ⟨some c, false, true, .rref, false, r, as⟩ =>
    some { memberVolatile c r as with isRrefthis := true, uniform := (.object c false true .rref :: as.map .arg, false) }
  | ⟨some c, true, true, .none, false, r, as⟩ => some (memberConstVolatile c r as)
  -- lines 152-165
  | ⟨some c, true, true, .lref, false, r, as⟩ => some { memberConstVolatile c r as with isLrefthis := true }
  | ⟨some c, true, true, .rref, false, r, as⟩ =>
    some { memberConstVolatile c r as with isRrefthis := true, uniform := (.object c true true .rref :: as.map .arg, false) }
  | _ => none

/-- what may be given as `F` -/
inductive Callable (X : Type)
  | pointer (f : Fn X)
  /-- an object of class `c` with one `operator()`, e.g. a lambda; `op` is the type of `&c::operator()` -/
  | functor (c : X) (op : Fn X)
  /-- `std::function<R(Args...)>` -/
  | stdFunction (res : X) (args : List X)

/-- `function_traits<F>`, lines 13-15, 167-176. `std::function<R(Args...)>` has its own specialisation, which derives from
    the helper of the function type itself: that is no pointer and has no `operator()`. -/
def traits : Callable X → Option (FTraits X)
  | .pointer f => helper f
  | .functor _ op => helper op
  | .stdFunction _ _ => none

/-- the four invokers -/
inductive Tag | voidStatic | returnStatic | voidMember | returnMember
deriving DecidableEq, Repr

/-- `method_invoker_tag`, /repo/include/rtti/metadefine.h:70-74; `isVoid` is `std::is_void_v` -/
def tag (isVoid : X → Bool) (t : FTraits X) : Tag :=
  if isVoid t.result then (if t.classType.isNone then .voidStatic else .voidMember)
  else (if t.classType.isNone then .returnStatic else .returnMember)

end Rtti.FnTraits
