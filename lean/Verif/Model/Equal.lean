import Verif.Model.Value
/-
Comparing and hashing variants: `variant::operator==`, /repo/src/variant.cpp:91-114; `compare_eq`,
/repo/include/rtti/metatype.h:295-308, 398-415; `variant::eq`, /repo/include/rtti/detail/variant_impl.h:458-499;
`std::hash<variant>`, variant_impl.h:566-580.

Simplified: an array type with two or more extents whose innermost element has no `==` is taken to be not comparable;
instantiating its `compare_eq` does not compile. Another thread removing a converter between `hasConverter` and
`convert` is not modelled.
-/
set_option autoImplicit false
namespace Rtti.Val

/-- what the compared objects say -/
structure Cmp where
  /-- `==` of a type on the objects at two addresses; `none`: it throws -/
  eq : Base → Addr → Addr → Option Bool
  /-- `==` of a type on the object at an address and what converter `fn` made of the object at another address -/
  eqTmp : CType → Addr → Nat → Addr → Option Bool
  /-- the bytes of memory -/
  byte : Addr → Nat

/-- `std::remove_all_extents_t` -/
def elem : CType → CType
  | .arr _ t => elem t
  | t => t

/-- `array_length`, /repo/include/rtti/misc_traits.h:98-107 -/
def len : CType → Nat
  | .arr n t => n * len t
  | _ => 1

/-- `has_eq_v`, misc_traits.h:338-360 -/
def hasEq (t : CType) : Bool :=
  match elem t with
  | .base b _ => b.traits.eq
  | _ => true

def lift : Option Bool → Ret Bool
  | some b => .ok b
  | none => .throw .user

/-- `*lhs == *rhs` -/
def elemEq (E : Env) (C : Cmp) (t : CType) (a b : Addr) : Option Bool :=
  match t with
  | .base x _ => C.eq x a b
  | _ => some (decide (E.load a = E.load b))

/-- `std::equal(first1, last1, first2)`; `room`: bytes left of the object at `b` -/
def rangeEq (E : Env) (C : Cmp) (t : CType) (size : Nat) : (room n : Nat) → (a b : Addr) → Ret Bool
  | _, 0, _, _ => .ok true
  | room, n + 1, a, b =>
    if room < size then .ub
    else (lift (elemEq E C t a b)).bind fun r =>
      if r then rangeEq E C t size (room - size) n (a + size) (b + size) else .ok false

/-- `compare_eq` of type `t`; the object at `rhs` is really of type `rt`: reading it as something else is undefined -/
def compareEq (E : Env) (C : Cmp) (t rt : CType) (lhs rhs : Addr) : Ret Bool :=
  if !hasEq t then .throw .runtimeError
  else if lhs = rhs then .ok true
  else if lhs = 0 ∨ rhs = 0 then .ok false
  else if (elem t).removeAllCv ≠ (elem rt).removeAllCv then .ub
  else rangeEq E C (elem t).removeAllCv (elem t).sizeOf rt.sizeOf (len t) lhs rhs

/-- `f_compare_eq` for the type `t`. Its `noexcept` asks whether `declval<T>() == declval<T>()` throws (misc_traits.h:351-354), and
    for arrays this compares two pointers: an exception in it is the end. For other types it asks the right question, and a `==`
    declared `noexcept` is taken not to throw. variant_impl.h:107-111, 171-175, 245-249, 317-321 -/
def noThrow (t : CType) : Ret Bool → Ret Bool
  | .throw e => if t.isArray then .terminate else .throw e
  | r => r

/-- `variant::operator==`; the left operand is passed by `f_compare_eq`, variant_impl.h:107-111, 171-175, 245-249, 317-321 -/
def equal (E : Env) (C : Cmp) (v w : Vnt) : Ret Bool :=
  match v.held, w.held with
  | none, none => .ok true
  | none, some _ => .ok false
  | some _, none => .ok false
  | some h, some g =>
    (compat (g.type .lrefConst) (h.type .lrefConst)).bind fun c =>
      if c && decide ((g.type .lrefConst).t.fullDecay = (h.type .lrefConst).t.fullDecay) then
        noThrow h.t (compareEq E C h.t g.t (if h.inPlace then v.self else v.ptr) (if g.t.isArray then w.ptr else w.access))
      else .ok false

def bytes (C : Cmp) : (a n : Nat) → List Nat
  | _, 0 => []
  | a, n + 1 => C.byte a :: bytes C (a + 1) n

/-- `std::hash<variant>`, with the hash function `H` for byte sequences -/
def hash (C : Cmp) (H : List Nat → Nat) (v : Vnt) : Nat :=
  match v.held with
  | none => 0
  | some h => H (bytes C (if h.t.isArray then v.ptr else v.access) h.u.sizeOf)

/-! ### `eq` -/

inductive Buf | stack | heap
deriving DecidableEq, Repr

/-- what happens to the temporaries -/
inductive Tmp | alloc | free | construct (b : Buf) | destroy (b : Buf)
deriving DecidableEq, Repr

/-- convert the object at `a` from `S` to `T` into a buffer for a `T`, and if that succeeds compare the object of type `T`
    at `x` with it and destroy it; `none`: not converted. A converter makes a value of the decayed type: for arrays a
    pointer, in a buffer for the elements. variant_impl.h:469-475 and 488-495. -/
def convertCompare (E : Env) (C : Cmp) (S T : CType) (a x : Addr) (b : Buf) : Ret (Option Bool) × List Tmp :=
  match E.conv S.fullDecay T.fullDecay with
  | none => (.ok none, [])
  | some c =>
    let r := runConverter c.kind (c.call a)
    let made := if r.2 then [Tmp.construct b] else []
    if r.2 && T.isArray then (.ub, made)
    else match r.1 with
      | .exception => (.throw .user, made)
      | .returned false => (.ok none, made)
      | .returned true =>
        ((if !hasEq T then .throw .runtimeError else (lift (C.eqTmp T.fullDecay x c.fn a)).bind fun r => .ok (some r)),
          made ++ [.destroy b])

/-- `variant::eq<T>(value)`, `value` at `x` -/
def eq (E : Env) (C : Cmp) (v : Vnt) (t : CType) (x : Addr) : Ret Bool × List Tmp :=
  match equal E C v ⟨some ⟨true, addConst t⟩, 0, x⟩ with
  | .ok true => (.ok true, [])
  | .ok false =>
    match v.held with
    | none => (.ok false, [])
    | some h =>
      -- first `hasConverter(mt_self, mt_value)`
      match convertCompare E C h.u t v.access x .stack with
      | (.ok (some r), l) => (.ok r, l)
      | (.ok none, l) =>
        -- then `hasConverter(mt_value, mt_self)`
        if (E.conv t.fullDecay h.u.fullDecay).isSome then
          match convertCompare E C t h.u x (if h.t.isArray then v.ptr else v.access) .heap with
          | (.ok (some r), l') => (.ok r, l ++ .alloc :: l' ++ [.free])
          | (.ok none, l') => (.ok false, l ++ .alloc :: l' ++ [.free])
          | (.throw e, l') => (.throw e, l ++ .alloc :: l' ++ [.free])
          | (.terminate, l') => (.terminate, l ++ .alloc :: l')
          | (.ub, l') => (.ub, l ++ .alloc :: l')
          | (.diverge, l') => (.diverge, l ++ .alloc :: l')
        else (.ok false, l)
      | (.throw e, l) => (.throw e, l)
      | (.terminate, l) => (.terminate, l)
      | (.ub, l) => (.ub, l)
      | (.diverge, l) => (.diverge, l)
  | .throw e => (.throw e, [])
  | .terminate => (.terminate, [])
  | .ub => (.ub, [])
  | .diverge => (.diverge, [])

end Rtti.Val
