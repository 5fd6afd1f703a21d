import Verif.Model.VariantIds
/-
`meta_cast` through ids, as the code does it: /repo/include/rtti/metaclass.h:70-117. `Model/MetaCast.lean` is about the
hierarchy of classes only; here classes and bases are found by the ids of types, after any calls.

Simplified as there (lazy definitions, `static_cast`); what `classInfo()` answers is given by the type that
`DECLARE_CLASSINFO` names in the final overrider and the address of that subobject.
-/
set_option autoImplicit false
namespace Rtti.ClassFind

/-- `internal::meta_cast<To>(From const*, std::true_type)`, lines 93-111, of a pointer that is not null: `classInfo()` answers
    `{metaTypeId<D>(), a}`, lines 80-89 -/
def Prog.metaCast (nm : RType → Str) (s : Prog) (D : RType) (a : Addr) (T : RType) : Prog × Res Addr :=
  let u := s.use nm D
  let f := u.1.lookup u.2
  let v := u.1.use nm T
  let t := v.1.lookup v.2
  (v.1, f.bind fun f => t.bind fun t =>
    match f, t with
    | some f, some t => v.1.world.cast f (some t) a
    | _, _ => .val 0)

end Rtti.ClassFind
