import Verif.Model.CallMem
/-
Converting a variant in place: `variant::convert<T>()` and `variant::tryConvert<T>()`, /repo/include/rtti/variant.h:308-325, in programs that also
use variants in the other ways of `Model/VariantMem.lean`.

What `to<T>()` finds in the registry (a base class to cast to, a converter) and at addresses outside of variants is given
with each conversion, see `Act.convert`; that it copies if the types are the same and throws if the variant is empty is here.
-/
set_option autoImplicit false
namespace Rtti.InPlace
open VMem CallMem

/-- what a variant's `raw_data_ptr()` leads to -/
inductive Held
  | nothing
  /-- its own object of type `t` with value `v` -/
  | object (t v : Nat)
  /-- an object of the program -/
  | outside (t a : Nat)
deriving DecidableEq, Repr

/-- reading a stored object -/
def readObj (t id : Nat) : M Nat := fun m =>
  match m.objs id with
  | none => (.ub, m)
  | some o => if o.type = t then (.ok o.val, m) else (.ub, m)

/-- `raw_data_ptr()`, variant.h:341-345, with `f_access`, /repo/include/rtti/detail/variant_impl.h:71-74, 130-136, 198-201 -/
def look (P : Prog) (x : Var) : M Held :=
  match x.mgr, x.cell with
  | .void, _ => pure .nothing
  | .ref t, .ext a => pure (.outside t a)
  | .ref _, _ => M.ub
  | .own t, c => do let id ← locate (P.ty t).place c; let v ← readObj t id; pure (.object t v)

/-- what a program does. `how`: what `metafunc_to<T>::invoke` comes to, variant.h:513-538, for an object of another type or one outside of variants -/
inductive Act
  | cmd (c : Cmd)
  /-- `x.convert<T>();` -/
  | convert (x t : Nat) (how : Held → Src)
  /-- `x.tryConvert<T>()` -/
  | tryConvert (x t : Nat) (how : Held → Src)

/-- `metafunc_to<T>::invoke`, variant.h:518-528 -/
def source (t : Nat) (how : Held → Src) (h : Held) : Src :=
  match h with
  | .nothing => .fails
  | .object u v => if u = t then .copy v else how h
  | .outside _ _ => how h

/-- `*this = to<T>();`, variant.h:309-310. Array types (the static_assert at 512) and types that can be neither copied nor moved (the one at
    /repo/include/rtti/detail/variant_impl.h:433) do not compile: nothing happens. -/
def convert (P : Prog) (x t : Nat) (how : Held → Src) : Step := fun s =>
  match s.env (some x) with
  | none => (.ok (), s)
  | some v =>
    if (P.ty t).place ≠ .array ∧ ((P.ty t).copyable || (P.ty t).movable) = true then
      bindM (look P v) (fun h => bindM (to P t (source t how h)) fun r => store P t x r) s
    else (.ok (), s)

/-- `try { *this = to<T>(); return true; } catch (...) { return false; }`, variant.h:312-325 -/
def tryConvert (P : Prog) (x t : Nat) (how : Held → Src) (s : State) : Out Bool × State :=
  match convert P x t how s with
  | (.ok _, s') => (.ok true, s')
  | (.threw, s') => (.ok false, s')
  | (.terminated, s') => (.terminated, s')
  | (.ub, s') => (.ub, s')

def yes : Out Unit × State → Out Bool × State
  | (.ok _, s) => (.ok true, s)
  | (.threw, s) => (.threw, s)
  | (.terminated, s) => (.terminated, s)
  | (.ub, s) => (.ub, s)

def act (P : Prog) (a : Act) (s : State) : Out Bool × State :=
  match a with
  | .cmd c => yes (exec P c s)
  | .convert x t how => yes (convert P x t how s)
  | .tryConvert x t how => tryConvert P x t how s

/-- a program, and what each of its steps gives: an answer, or an exception that someone caught -/
def run (P : Prog) : List Act → State → Out (List (Option Bool)) × State
  | [], s => (.ok [], s)
  | a :: as, s =>
    match act P a s with
    | (.ok b, s') =>
      match run P as s' with
      | (.ok l, s'') => (.ok (some b :: l), s'')
      | r => r
    | (.threw, s') =>
      match run P as s' with
      | (.ok l, s'') => (.ok (none :: l), s'')
      | r => r
    | (.terminated, s') => (.terminated, s')
    | (.ub, s') => (.ub, s')

end Rtti.InPlace
