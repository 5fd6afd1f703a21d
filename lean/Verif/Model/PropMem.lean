import Verif.Model.CallLink
/-
The temporary objects of writing and reading a property: `set_static`, `set_field`, /repo/include/rtti/metadefine.h:652-658, 704-733, 795-805, called by
`MetaProperty::set`, /repo/include/rtti/variant.h:770-775, 806-834. Memory and numbers are those of `Model/CallLink.lean`.

Simplified: as there every temporary is given an `m_dummy` of its own, which stays empty for values; an argument whose conversion is undefined or ends the
program is left to `Property.set` of `Model/Invoke.lean`.
-/
set_option autoImplicit false
namespace Rtti.CallMem
open Val VMem

/-- `arg.value<T>()`, by value, argument_impl.h:80-96 -/
def newParam (E : Env) (N : Nest) (V : Codes) (t : CType) (a : Arg) : Param := paramOf E N V a ⟨.none, t⟩

/-- the assignment reads the new value, which is the first temporary made -/
def assigning (throws : Nat → Bool) : List Nat → Bool
  | v :: _ => throws v
  | [] => false

/-- dereferencing what the left operand gives goes wrong; the right operand comes first ([expr.ass]) -/
def wrongLeft (P : Prog) (x : Nat) (new : Param) : Step := seq (call P (fun _ => false) x [new]) fun s => (.ub, s)

/-- `object.*property = arg.value<T>()` and `*property = arg.value<T>()`; `throws`: whether the assignment throws, by the object assigned to and the new
    value; `throwsSet`: the same for a setter. In the assignment the right operand is evaluated first ([expr.ass]); both temporaries live to its end. -/
def setProp (P : Prog) (E : Env) (N : Nest) (V : Codes) (throws : Spot → Nat → Bool) (throwsSet : Val.Obj → List Nat → Bool) (p : Property)
    (i : Option (Bool × Vnt)) (a : Arg) (x : Nat) : Step :=
  match i with
  | none =>
    match p with
    | .static t y => if t.isConst then fun s => (.threw, s) else call P (assigning (throws ⟨.at y, 0⟩)) x [newParam E N V t a]
    | _ => fun s => (.threw, s)
  | some (isConst, v) =>
    match p with
    | .static _ _ => fun s => (.threw, s)
    | .field b t off =>
      let new := newParam E N V t a
      if t.isConst then fun s => (.threw, s)
      else if v.held = none then fun s => (.ok (), s)
      else if (describe (v.type .none)).isClass then
        if isConst then fun s => (.threw, s)
        else
          match reference E v .ref (.base b ⟨false, false⟩) with
          | .ok o => call P (assigning (throws ⟨.at o, off⟩)) x [new]
          | .throw _ => call P (fun _ => true) x [new]
          | _ => wrongLeft P x new
      else if (describe (v.type .none)).isClassPtr then
        let u := instancePtr b false
        match Val.to E v isConst u with
        | .ok m =>
          if pointee E m = .at 0 then wrongLeft P x new
          else call P (assigning (throws ⟨pointee E m, off⟩)) x [new, .value (V.code u) (V.src u m)]
        | .throw .badVariantConvert => call P (fun _ => false) x [new, .value (V.code u) (refused E V v isConst u)]
        | .throw _ => call P (fun _ => false) x [new, .value (V.code u) .fails]
        | _ => wrongLeft P x new
      else fun s => (.ok (), s)
    | .accessor b _ set => invokeMember P E N V throwsSet set b isConst v [a] x

/-- `get_static`, `get_field`, metadefine.h:649-650, 694-702, 792-799, called by `MetaProperty::get`, variant.h:763-804: the variant `y` is the result.
    `loc`: the number of the object at a place; `ret`: what a getter returns, by its object, `none`: an exception. The pointer an instance is converted to
    lives until the result is made. Simplified: it is dropped just before (making a variant of a reference touches no memory and does not throw);
    getters that return references are those of `callRef`. -/
def getProp (P : Prog) (E : Env) (N : Nest) (V : Codes) (y : Nat) (loc : Spot → Nat) (ret : Val.Obj → Option Nat) (p : Property) (i : Option Vnt)
    (x : Nat) : Step :=
  match i with
  | none =>
    match p with
    | .static t z => newRef (some y) (V.code (addConst t)) (loc ⟨.at z, 0⟩)
    | _ => fun s => (.threw, s)
  | some v =>
    match p with
    | .static _ _ => fun s => (.threw, s)
    | .field b t off =>
      if v.held = none then newEmpty (some y)
      else if (describe (v.type .none)).isClass then
        match reference E v .refConst (.base b ⟨true, false⟩) with
        | .ok o => newRef (some y) (V.code (addConst t)) (loc ⟨.at o, off⟩)
        | .throw _ => fun s => (.threw, s)
        | _ => fun s => (.ub, s)
      else if (describe (v.type .none)).isClassPtr then
        let u := instancePtr b true
        match Val.to E v true u with
        | .ok m =>
          if pointee E m = .at 0 then fun s => (.ub, s)
          else seq (call P (fun _ => false) x [.value (V.code u) (V.src u m)]) (newRef (some y) (V.code (addConst t)) (loc ⟨pointee E m, off⟩))
        | .throw .badVariantConvert => call P (fun _ => false) x [.value (V.code u) (refused E V v true u)]
        | .throw _ => fun s => (.threw, s)
        | _ => fun s => (.ub, s)
      else newEmpty (some y)
    | .accessor b get _ =>
      match get.result with
      | some r => invokeMemberVal P E N V y r.t (fun o _ => ret o) get b true v [] x
      | none => fun s => (.threw, s)

end Rtti.CallMem
