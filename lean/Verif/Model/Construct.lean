import Verif.Model.VariantMem
/-
Type-erased construction: `MetaType::construct`, `MetaType::destruct` and the functions they call,
/repo/src/metatype.cpp:244-312 and /repo/include/rtti/metatype.h:223-296, 312-398.

Memory is a set of numbered blocks with one slot per element. Objects get a number when their lifetime starts. The
constructors of the user's types are parameters: what value they give, and, by a counter of constructor calls, whether
they throw. `operator new` may fail. A history is kept beside the state (ghost); `lost` says that the storage of an
object was released though its (non-trivial) destructor had not been called.
Simplifications: a value is a number; `operator new` gives memory that is aligned for every type that is not
over-aligned. Types with a function table that could not be called (functions, abstract classes) are not here.
-/
set_option autoImplicit false
namespace Rtti.Mk
open VMem (Out)

/-- the constructors of a type -/
inductive Kind
  | dflt | copy | move
deriving DecidableEq, Repr

/-- what the function table of a type knows -/
structure CTy where
  array : Bool
  /-- 1, or `array_length<T[N]>` -/
  count : Nat
  /-- alignof > __STDCPP_DEFAULT_NEW_ALIGNMENT__ -/
  overAligned : Bool
  /-- is_default_/copy_/move_constructible (of the element) -/
  able : Kind → Bool
  /-- is_nothrow_default_/copy_/move_constructible -/
  nothrow : Kind → Bool
  /-- is_trivially_default_constructible -/
  trivDflt : Bool
  /-- is_trivially_destructible -/
  trivDtor : Bool
  /-- copy and move assignment are trivial -/
  trivAssign : Bool
  /-- the value of a default constructed object -/
  dfltVal : Nat
  /-- the value of a copy -/
  copyVal : Nat → Nat
  /-- the value of an object move constructed from a source, and what remains in the source -/
  moveVal : Nat → Nat × Nat

structure Prog where
  ty : Nat → CTy
  /-- does the next call of `operator new` fail? -/
  oom : Nat → Bool
  /-- does this call (kind, type, number of the call) of a constructor throw? -/
  throws : Kind → Nat → Nat → Bool

inductive Slot
  /-- no object, or one of indeterminate value -/
  | raw
  | obj (id val : Nat)
deriving DecidableEq, Repr

structure Block where
  ty : Nat
  /-- from `operator new` (otherwise an object of the program) -/
  heap : Bool
  slots : List Slot
deriving DecidableEq, Repr

inductive Ev
  | ctor (id type : Nat)
  | dtor (id : Nat)
  | lost (id : Nat)
deriving DecidableEq, Repr

structure Mem where
  blocks : Nat → Option Block
  nextBlock : Nat
  nextObj : Nat
  /-- calls of `operator new` -/
  news : Nat
  /-- calls of constructors -/
  ticks : Nat
  log : List Ev

abbrev M (A : Type) := Mem → Out A × Mem

def M.pure {A : Type} (a : A) : M A := fun m => (.ok a, m)

def M.bind {A B : Type} (f : M A) (g : A → M B) : M B := fun m =>
  match f m with
  | (.ok a, m') => g a m'
  | (.threw, m') => (.threw, m')
  | (.terminated, m') => (.terminated, m')
  | (.ub, m') => (.ub, m')

/-- a function declared `noexcept(c)` -/
def noexcept {A : Type} (c : Bool) (f : M A) : M A := fun m =>
  match f m with
  | (.threw, m') => if c then (.terminated, m') else (.threw, m')
  | r => r

section
variable (P : Prog)

/-- metatype.h:226-229 and 318-321 -/
def tableAllocate (t : Nat) : M Nat := fun m =>
  if P.oom m.news then (.threw, { m with news := m.news + 1 })
  else (.ok m.nextBlock, { m with blocks := upd m.blocks m.nextBlock (some ⟨t, true, List.replicate (P.ty t).count .raw⟩),
                                  nextBlock := m.nextBlock + 1, news := m.news + 1 })

/-- the objects whose storage goes away without a destructor call -/
def lostIn (trivDtor : Bool) : List Slot → List Ev
  | [] => []
  | .raw :: ss => lostIn trivDtor ss
  | .obj id _ :: ss => if trivDtor then lostIn trivDtor ss else .lost id :: lostIn trivDtor ss

/-- metatype.h:231-235 and 323-327; null is filtered out by `destruct` -/
def tableDeallocate (b : Nat) : M Unit := fun m =>
  match m.blocks b with
  | none => (.ub, m)
  | some k =>
    if k.heap then (.ok (), { m with blocks := upd m.blocks b none,
                                     log := lostIn (P.ty k.ty).trivDtor k.slots ++ m.log })
    else (.ub, m)

/-- put an object into a slot -/
def putSlot (b i : Nat) (s : Slot) (m : Mem) : Mem :=
  match m.blocks b with
  | none => m
  | some k => { m with blocks := upd m.blocks b (some { k with slots := k.slots.set i s }) }

/-- a constructor of the user runs in a slot: the object exists unless it throws -/
def construct1 (kind : Kind) (t b i val : Nat) : M Unit := fun m =>
  if (P.ty t).overAligned then (.ub, m)
  else if P.throws kind t m.ticks then (.threw, { m with ticks := m.ticks + 1 })
  else (.ok (), putSlot b i (.obj m.nextObj val)
    { m with ticks := m.ticks + 1, nextObj := m.nextObj + 1, log := .ctor m.nextObj t :: m.log })

/-- the loop at metatype.h:341-345 -/
def dfltLoop (t b : Nat) : Nat → Nat → M Unit
  | _, 0 => M.pure ()
  | i, n + 1 => (construct1 P .dflt t b i (P.ty t).dfltVal).bind fun _ => dfltLoop t b (i + 1) n

/-- metatype.h:240-251 and 329-350 -/
def tableDefault (t b : Nat) : M Unit :=
  noexcept ((P.ty t).nothrow .dflt) <|
    if (P.ty t).able .dflt then
      if (P.ty t).trivDflt then M.pure ()
      else dfltLoop P t b 0 (P.ty t).count
    else fun m => (.threw, m)

/-- the value in a slot of the source -/
def readSlot (b i : Nat) : M Nat := fun m =>
  match m.blocks b with
  | none => (.ub, m)
  | some k =>
    match k.slots[i]? with
    | some (.obj _ v) => (.ok v, m)
    | _ => (.ub, m)

/-- the source of a move keeps what remains -/
def writeSlot (b i v : Nat) : M Unit := fun m =>
  match m.blocks b with
  | none => (.ub, m)
  | some k =>
    match k.slots[i]? with
    | some (.obj id _) => (.ok (), putSlot b i (.obj id v) m)
    | _ => (.ub, m)

/-- `std::copy` / `std::move` into raw memory (lines 360, 374): an assignment to objects that do not exist, fine only
    if it is trivial -/
def assignLoop (t src b : Nat) : Nat → Nat → M Unit
  | _, 0 => M.pure ()
  | i, n + 1 =>
    (readSlot src i).bind fun v =>
    M.bind (fun m => (.ok (), putSlot b i (.obj m.nextObj v) { m with nextObj := m.nextObj + 1, log := .ctor m.nextObj t :: m.log }))
      fun _ => assignLoop t src b (i + 1) n

/-- the source has the type -/
def hasType (t src : Nat) : M Unit := fun m =>
  match m.blocks src with
  | none => (.ub, m)
  | some k => if k.ty = t then (.ok (), m) else (.ub, m)

/-- metatype.h:253-264 and 352-364 -/
def tableCopy (t src b : Nat) : M Unit :=
  noexcept ((P.ty t).nothrow .copy) <|
    if (P.ty t).able .copy then
      (hasType t src).bind fun _ =>
      if (P.ty t).array then
        if (P.ty t).trivAssign then assignLoop t src b 0 (P.ty t).count else fun m => (.ub, m)
      else (readSlot src 0).bind fun v => construct1 P .copy t b 0 ((P.ty t).copyVal v)
    else fun m => (.threw, m)

/-- metatype.h:266-276 and 366-378 -/
def tableMove (t src b : Nat) : M Unit :=
  noexcept ((P.ty t).nothrow .move) <|
    if (P.ty t).able .move then
      (hasType t src).bind fun _ =>
      if (P.ty t).array then
        if (P.ty t).trivAssign then assignLoop t src b 0 (P.ty t).count else fun m => (.ub, m)
      else (readSlot src 0).bind fun v =>
        (construct1 P .move t b 0 ((P.ty t).moveVal v).1).bind fun _ => writeSlot src 0 ((P.ty t).moveVal v).2
    else fun m => (.threw, m)

/-- metatype.h:280-286 and 380-386 -/
def tableMoveOrCopy (t src b : Nat) : M Unit :=
  if (P.ty t).able .move then tableMove P t src b else tableCopy P t src b

/-- one destructor call -/
def destroy1 (b i : Nat) : M Unit := fun m =>
  match m.blocks b with
  | none => (.ub, m)
  | some k =>
    match k.slots[i]? with
    | some (.obj id _) => (.ok (), { putSlot b i .raw m with log := .dtor id :: m.log })
    | _ => (.ub, m)

/-- the loop at metatype.h:396-397 -/
def destroyLoop (b : Nat) : Nat → Nat → M Unit
  | _, 0 => M.pure ()
  | i, n + 1 => (destroy1 b i).bind fun _ => destroyLoop b (i + 1) n

/-- metatype.h:288-293 and 388-398 -/
def tableDestroy (t b : Nat) : M Unit :=
  if (P.ty t).trivDtor then M.pure ()
  else (hasType t b).bind fun _ => destroyLoop b 0 (P.ty t).count

/-- a `MetaType`: invalid (`m_typeInfo` is null), without function table (`void`), or with that of a type -/
inductive MT
  | invalid | void | type (t : Nat)
deriving DecidableEq, Repr

/-- metatype.cpp:244-248 -/
def allocate : MT → M (Option Nat)
  | .invalid => M.pure none
  | .void => fun m => (.ub, m)
  | .type t => (tableAllocate P t).bind fun b => M.pure (some b)

/-- metatype.cpp:250-254 -/
def deallocate (b : Nat) : MT → M Unit
  | .invalid => M.pure ()
  | .void => fun m => (.ub, m)
  | .type _ => tableDeallocate P b

/-- metatype.cpp:256-260 -/
def defaultConstruct (where_ : Option Nat) : MT → M Unit
  | .invalid => M.pure ()
  | .void => fun m => (.ub, m)
  | .type t => match where_ with
    | some b => tableDefault P t b
    | none => M.pure ()

/-- metatype.cpp:262-266 -/
def copyConstruct (src : Nat) (where_ : Option Nat) : MT → M Unit
  | .invalid => M.pure ()
  | .void => fun m => (.ub, m)
  | .type t => match where_ with
    | some b => tableCopy P t src b
    | none => M.pure ()

/-- metatype.cpp:274-278 -/
def moveOrCopy (src : Nat) (where_ : Option Nat) : MT → M Unit
  | .invalid => M.pure ()
  | .void => fun m => (.ub, m)
  | .type t => match where_ with
    | some b => tableMoveOrCopy P t src b
    | none => M.pure ()

/-- metatype.cpp:280-284, `noexcept`; destructors do not throw -/
def destroy (b : Nat) : MT → M Unit
  | .invalid => M.pure ()
  | .void => fun m => (.ub, m)
  | .type t => tableDestroy P t b

/-- `MetaType::construct`, metatype.cpp:292-303 -/
def construct (mt : MT) (copy : Option Nat) (movable : Bool) : M (Option Nat) :=
  (allocate P mt).bind fun result =>
  M.bind
    (match copy with
    | none => defaultConstruct P result mt
    | some src => if movable = false then copyConstruct P src result mt else moveOrCopy P src result mt)
    fun _ => M.pure result

/-- `MetaType::destruct`, metatype.cpp:305-312 -/
def destruct (mt : MT) (instance_ : Option Nat) : M Unit :=
  match instance_ with
  | none => M.pure ()
  | some b => (destroy P b mt).bind fun _ => deallocate P b mt

end
end Rtti.Mk
