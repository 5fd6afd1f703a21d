import Verif.Model.PropMem
import Verif.Spec.CallLink
/-
What writing a property may lose.
-/
set_option autoImplicit false
namespace Rtti.CallMem
open Val VMem

/-- the type of the object a property writes to itself -/
def writes : Property → Option CType
  | .static t _ => some t
  | .field _ t _ => some t
  | .accessor _ _ _ => none

/-- the new value was made by a converter that declined -/
def lostNew (E : Env) (N : Nest) (V : Codes) (t : CType) (a : Arg) : List Nat :=
  match a.get E N ⟨.none, t⟩, a.resolve E N false with
  | .throw .badVariantConvert, .ok v => if Declined E v true t.decay then [V.code t.decay] else []
  | _, _ => []

/-- what a write that is refused loses: the new value, if its converter declined; or the pointer to the instance, if the new value could be made and the
    converter of the instance declined; for a setter what the call loses -/
def lostWrite (P : Prog) (E : Env) (N : Nest) (V : Codes) (p : Property) (i : Option (Bool × Vnt)) (a : Arg) : List Nat :=
  match p, i with
  | .static t _, none => if t.isConst then [] else lostNew E N V t a
  | .field b t _, some (isConst, v) =>
    if t.isConst || v.held.isNone then []
    else if (describe (v.type .none)).isClass then if isConst then [] else lostNew E N V t a
    else if (describe (v.type .none)).isClassPtr then
      lostNew E N V t a ++
        (match a.get E N ⟨.none, t⟩, object E b false isConst v with
          | .ok _, .throw .badVariantConvert => lostInstance E V b false isConst v
          | _, _ => [])
    else []
  | .accessor b _ s, some (isConst, v) =>
    match pack s.params.length [a], object E b s.const isConst v with
    | .ok as, .ok _ => lostUntil P E N V s.params as
    | .ok _, .throw .badVariantConvert => lostInstance E V b s.const isConst v
    | _, _ => []
  | _, _ => []

/-- what a read that is refused loses: the pointer to the instance, if its converter declined -/
def lostRead (E : Env) (V : Codes) (p : Property) (i : Option Vnt) : List Nat :=
  match p, i with
  | .field b _ _, some v => if object E b true true v = .throw .badVariantConvert then lostInstance E V b true true v else []
  | .accessor b g _, some v => if object E b g.const true v = .throw .badVariantConvert then lostInstance E V b g.const true v else []
  | _, _ => []

end Rtti.CallMem
