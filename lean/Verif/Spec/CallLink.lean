import Verif.Model.CallLink
/-
The objects of a call, said of what its parameters are bound to.
-/
set_option autoImplicit false
namespace Rtti.CallMem
open Val VMem

/-- The numbers fit the types and objects they are for: what cannot be copied cannot be copied there; a copy has the value of its original, or its constructor
    throws for that object; everything can be moved, which keeps the value and does not throw; nothing decays to an array. -/
structure Agree (P : Prog) (E : Env) (V : Codes) : Prop where
  array : ∀ t, (P.ty (V.code t)).place ≠ .array
  copyable : ∀ t, (P.ty (V.code t)).copyable = copyable t
  copy : ∀ t a, Val.copyable t = true → (P.ty (V.code t)).copy (V.val t a) = if E.copyThrows t.fullDecay a then none else some (V.val t a)
  movable : ∀ t, (P.ty (V.code t)).movable = true
  move : ∀ t v, ∃ r, (P.ty (V.code t)).move v = some (v, r)

/-- the values made for parameters: none for one bound to an object there was -/
def valuesOf (V : Codes) : List RType → List Bound → List Nat
  | p :: ps, .object _ :: bs => valuesOf V ps bs
  | p :: ps, .dummy m :: bs => V.made p.t.decay m :: valuesOf V ps bs
  | p :: ps, .value m :: bs => V.made p.t.decay m :: valuesOf V ps bs
  | _, _ => []

/-- the types of the objects lost: one for every parameter bound to a converted value small enough for the buffer of `m_dummy` -/
def lostOf (P : Prog) (V : Codes) : List RType → List Bound → List Nat
  | p :: ps, .dummy _ :: bs => (if (P.ty (V.code p.t.decay)).place = .small then [V.code p.t.decay] else []) ++ lostOf P V ps bs
  | _ :: ps, _ :: bs => lostOf P V ps bs
  | _, _ => []

/-- converting what the variant holds was left to a function with a flag, which returned a value and left the flag unset -/
def Declined (E : Env) (v : Vnt) (const : Bool) (t : CType) : Bool :=
  match E.conv (v.type (if const then .lrefConst else .lref)).t.fullDecay t.fullDecay with
  | some c => decide (c.kind = .functorOk ∧ c.call v.access = .returns false false)
  | none => false

/-- the same for a call that is refused: those of the parameters before the one that fails, and what the converter made that declined -/
def lostUntil (P : Prog) (E : Env) (N : Nest) (V : Codes) : List RType → List Arg → List Nat
  | p :: ps, a :: as =>
    match a.get E N p with
    | .ok (.dummy _) => (if (P.ty (V.code p.t.decay)).place = .small then [V.code p.t.decay] else []) ++ lostUntil P E N V ps as
    | .ok _ => lostUntil P E N V ps as
    | .throw .badVariantConvert =>
      match a.resolve E N (decide (p.ref = .rref)) with
      | .ok v => if Declined E v (decide (p.ref ≠ .rref)) p.t.decay then [V.code p.t.decay] else []
      | _ => []
    | _ => []
  | _, _ => []

/-- the object lost when the instance of a member function is refused: the pointer made by a converter that declined -/
def lostInstance (E : Env) (V : Codes) (b : Base) (method isConst : Bool) (v : Vnt) : List Nat :=
  if (describe (v.type .none)).isClassPtr && Declined E v isConst (.ptr ⟨false, false⟩ (.base b ⟨method, false⟩)) then
    [V.code (.ptr ⟨false, false⟩ (.base b ⟨method, false⟩))]
  else []

end Rtti.CallMem
