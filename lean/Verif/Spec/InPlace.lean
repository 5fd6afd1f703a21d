import Verif.Model.InPlace
import Verif.Spec.CallMem
import Verif.Spec.VariantExact
/-
What programs that convert variants in place do, told without memory: as in `Spec/VariantExact.lean`, with conversions.
-/
set_option autoImplicit false
namespace Rtti.InPlace
open VMem CallMem

/-- where the new object comes from -/
def comesFrom (t : Nat) (how : Held → Src) : Content → Src
  | .empty => .fails
  | .val u v => if u = t then .copy v else how (.object u v)
  | .ref u a => how (.outside u a)

/-- a type one can convert to -/
def target (P : Prog) (t : Nat) : Bool := decide ((P.ty t).place ≠ .array) && storable P t true

/-- a conversion: the new value replaces the old one -/
def converted (P : Prog) (x t : Nat) (how : Held → Src) (s : Abs) : Out Unit × Abs :=
  match s.σ x with
  | none => (.ok (), s)
  | some a =>
    if target P t then
      match (toS P t (comesFrom t how a)).1 with
      | .ok v => s.act (replace P a (fromValue P t v true)) fun c => upd s.σ x (some c)
      | o => (toUnit o, s)
    else (.ok (), s)

/-- what the caller learns -/
def answer (b : Bool) : Out Unit → Out Bool
  | .ok _ => .ok true
  | .threw => if b then .ok false else .threw
  | .terminated => .terminated
  | .ub => .ub

def acted (P : Prog) (a : Act) (s : Abs) : Out Bool × Abs :=
  match a with
  | .cmd c => (answer false (meant P c s).1, (meant P c s).2)
  | .convert x t how => (answer false (converted P x t how s).1, (converted P x t how s).2)
  | .tryConvert x t how => (answer true (converted P x t how s).1, (converted P x t how s).2)

def told (P : Prog) : List Act → Abs → Out (List (Option Bool)) × Abs
  | [], s => (.ok [], s)
  | a :: as, s =>
    match acted P a s with
    | (.ok b, s') => ((told P as s').1.bind fun l => .ok (some b :: l), (told P as s').2)
    | (.threw, s') => ((told P as s').1.bind fun l => .ok (none :: l), (told P as s').2)
    | (.terminated, s') => (.terminated, s')
    | (.ub, s') => (.ub, s')

/-- how many objects a conversion leaves that nothing ever destroys: those moved from in a swap, and one a converter made and then gave up -/
def leaves (P : Prog) (x t : Nat) (how : Held → Src) (s : Abs) : Nat :=
  match s.σ x with
  | none => 0
  | some a =>
    if target P t then
      match (converted P x t how s).1 with
      | .ok _ => swapMoves P (.val t 0) a
      | _ => (toS P t (comesFrom t how a)).2.length
    else 0

def left (P : Prog) (a : Act) (s : Abs) : Nat :=
  match a with
  | .cmd c => match (meant P c s).1 with | .ok _ => moves P s.σ c | _ => 0
  | .convert x t how => leaves P x t how s
  | .tryConvert x t how => leaves P x t how s

def leftIn (P : Prog) : List Act → Abs → Nat
  | [], _ => 0
  | a :: as, s =>
    match (acted P a s).1 with
    | .ok _ | .threw => left P a s + leftIn P as (acted P a s).2
    | _ => 0

def Act.names : Act → List Nat
  | .cmd c => c.names
  | .convert x _ _ => [x]
  | .tryConvert x _ _ => [x]

end Rtti.InPlace
