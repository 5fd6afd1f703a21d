import Verif.Model.CallMem
/-
What calls do with temporaries, without memory: how they end, and which objects and blocks they lose.
-/
set_option autoImplicit false
namespace Rtti.CallMem
open VMem

/-- an exception in something that promises not to throw is the end -/
def promised (nothrow : Bool) : Option Nat → Out Nat
  | some v => .ok v
  | none => if nothrow then .terminated else .threw

/-- the value of a copy -/
def copyS (P : Prog) (t v : Nat) : Option Nat := if (P.ty t).copyable then (P.ty t).copy v else none

/-- the value of what is moved, or copied if it cannot be moved -/
def moveS (P : Prog) (t v : Nat) : Out Nat :=
  promised (P.ty t).nothrowMove (if (P.ty t).movable then ((P.ty t).move v).map (·.1) else copyS P t v)

/-- what is in the buffer, and the types of the objects lost -/
def fillS (P : Prog) (t : Nat) : Src → Out Nat × List Nat
  | .copy v => (promised (P.ty t).nothrowCopy (copyS P t v), [])
  | .made v true => (.ok v, [])
  | .made _ false => (.threw, [t])
  | .fails => (.threw, [])

def toS (P : Prog) (t : Nat) (src : Src) : Out Nat × List Nat :=
  match fillS P t src with
  | (.ok v, l) => (moveS P t v, l)
  | r => r

def toUnit : Out Nat → Out Unit
  | .ok _ => .ok ()
  | .threw => .threw
  | .terminated => .terminated
  | .ub => .ub

/-- how a call ends, the types of the objects that are never destroyed, and the number of blocks never freed; `n`: the number of the next
    allocation; `vs`: the values of the parameters so far, as the function sees them -/
def callS (P : Prog) (throws : List Nat → Bool) : (n : Nat) → (vs : List Nat) → List Param → Out Unit × List Nat × Nat
  | _, vs, [] => (if throws vs then .threw else .ok (), [], 0)
  | n, vs, .direct :: ps => callS P throws n vs ps
  | n, vs, .value t src :: ps =>
    match toS P t src with
    | (.ok v, l) =>
      let r := callS P throws n (vs ++ [v]) ps
      (r.1, l ++ r.2.1, r.2.2)
    | (o, l) => (toUnit o, l, 0)
  | n, vs, .dummy t src :: ps =>
    match toS P t src with
    | (.ok v, l) =>
      -- no memory for an object on the heap
      if (P.ty t).place ≠ .small ∧ P.oom n = true then (if (P.ty t).nothrowMove then .terminated else .threw, l, 0)
      else match moveS P t v with
      | .ok v' =>
        if (P.ty t).place = .small then
          -- swapped into `m_dummy`: moved again, and what was moved from is forgotten
          match moveS P t v' with
          | .ok v'' =>
            let r := callS P throws n (vs ++ [v'']) ps
            (r.1, l ++ t :: r.2.1, r.2.2)
          | _ => (.terminated, l, 0)
        else
          let r := callS P throws (n + 1) (vs ++ [v']) ps
          (r.1, l ++ r.2.1, r.2.2)
      | o => (toUnit o, l, if (P.ty t).place = .small then 0 else 1)
    | (o, l) => (toUnit o, l, 0)

/-- constructor and destructor calls for types `q`, allocated and freed blocks of a history -/
def ctors (q : Nat → Bool) : List Ev → Nat
  | [] => 0
  | .ctor _ t :: l => ctors q l + (if q t then 1 else 0)
  | _ :: l => ctors q l

def dtors (q : Nat → Bool) : List Ev → Nat
  | [] => 0
  | .dtor _ t :: l => dtors q l + (if q t then 1 else 0)
  | _ :: l => dtors q l

def allocs : List Ev → Nat
  | [] => 0
  | .alloc _ :: l => allocs l + 1
  | _ :: l => allocs l

def frees : List Ev → Nat
  | [] => 0
  | .free _ :: l => frees l + 1
  | _ :: l => frees l

/-- `to<T>` is not for arrays, and anything it makes can be returned -/
def Param.Fine (P : Prog) : Param → Prop
  | .direct => True
  | .dummy t _ => (P.ty t).place ≠ .array ∧ ((P.ty t).copyable = true ∨ (P.ty t).movable = true)
  | .value t _ => (P.ty t).place ≠ .array ∧ ((P.ty t).copyable = true ∨ (P.ty t).movable = true)

end Rtti.CallMem
