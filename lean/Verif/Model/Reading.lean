import Verif.Model.VariantMem
import Verif.Model.Value
/-
Variants as they are stored (`Model/VariantMem.lean`), seen by those who read them (`Model/Value.lean`): the addresses of
variants and heap blocks, and what the first word of a variant's storage is. /repo/include/rtti/variant.h:22-26, 100-127.
-/
set_option autoImplicit false
namespace Rtti.Reading
open VMem

/-- where the compiler and `operator new` put things -/
structure Layout where
  /-- the types, by their numbers -/
  ty : Nat → CType
  /-- the address of a variant, which is the address of its storage -/
  var : Nat → Addr
  /-- the address of a heap block -/
  heap : Nat → Addr
  /-- the first word of an object of a type with a value -/
  bits : Nat → Nat → Addr
  /-- the first word of storage never written to -/
  junk : Addr

/-- `storage.ptr`: the first word of the storage, whatever is in it -/
def word (L : Layout) (m : Mem) : Cell → Addr
  | .raw => L.junk
  | .null => 0
  | .obj id =>
    match m.objs id with
    | some o => L.bits o.type o.val
    | none => L.junk
  | .block b => L.heap b
  | .ext a => a

/-- what a function table says about the type: variant_impl.h:429-443, which table a value gets -/
def heldBy (L : Layout) : Mgr → Option Val.Held
  | .void => none
  | .own t => some ⟨false, L.ty t⟩
  | .ref t => some ⟨true, L.ty t⟩

/-- the variant named `x` -/
def seen (L : Layout) (m : Mem) (x : Nat) (v : Var) : Val.Vnt := ⟨heldBy L v.mgr, L.var x, word L m v.cell⟩

/-- an object gets a new value, by an assignment of the user's -/
def overwrite (s : State) (id t v : Nat) : State := { s with mem := { s.mem with objs := upd s.mem.objs id (some ⟨t, v⟩) } }

end Rtti.Reading
