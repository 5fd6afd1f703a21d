import Verif.Model.CallMem
/-
Calls whose result is returned by value: `return func(args[I]->value<argument_get_t<I>>()...);`, /repo/include/rtti/metadefine.h:216-218, `reference_get`, 395-402,
404-435, and constructors, `return C(args[I]->value<argument_get_t<I>>()...);`, 588-594. The variant returned is made of the value returned, with
`variant::variant(T&&)`, /repo/include/rtti/detail/variant_impl.h:436-449.

The value returned is a temporary object until the variant is made; then the parameters by value end, then the `m_dummy` of the arguments. What the functions
around this one return is the same variant (no copy is made of a prvalue), so it is `y` here, a variant of the caller.
-/
set_option autoImplicit false
namespace Rtti.CallMem
open VMem

/-- the result of the function, the variant `y` made of it, and the end of the result (metadefine.h:218); what remains of the result when it was moved
    from is not kept, as in `store` -/
def giveBack (P : Prog) (y t v : Nat) : Step :=
  bindM (born t v) fun r => finally' (newValue P (some y) t v true) (drop t r)

/-- as `body` (metadefine.h:210-219, 404-435, 588-594); `f`: what the function returns, by what it reads; `none`: it throws -/
def bodyVal (P : Prog) (y t : Nat) (f : List Nat → Option Nat) : (i : Nat) → (acc : List (Nat × Nat)) → List Param → Step
  | _, acc, [] => fun s =>
    match readAll s.mem acc with
    | none => (.ub, s)
    | some vs =>
      match f vs with
      | none => (.threw, s)
      | some v => giveBack P y t v s
  | i, acc, .direct :: ps => bodyVal P y t f (i + 1) acc ps
  | i, acc, .value u src :: ps => bindM (to P u src) fun id => finally' (bodyVal P y t f (i + 1) (acc ++ [(u, id)]) ps) (drop u id)
  | i, acc, .dummy u src :: ps => bindM (to P u src) fun r => seq (store P u i r) fun s =>
    match inDummy P u i s with
    | .ok id => bodyVal P y t f (i + 1) (acc ++ [(u, id)]) ps s
    | _ => (.ub, s)

/-- a call; the arguments' variants are `x`, `x + 1`, ..., the result `y` (metadefine.h:160-192, 291-383) -/
def callVal (P : Prog) (y t : Nat) (f : List Nat → Option Nat) (x : Nat) (ps : List Param) : Step := fun s =>
  finally' (bodyVal P y t f x [] ps) (destroyAll P x ps.length) (newAll x ps.length s)

end Rtti.CallMem
