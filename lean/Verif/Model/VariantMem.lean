import Verif.Model.World
/-
The storage of variants: /repo/src/variant.cpp:9-88, /repo/include/rtti/variant.h:22-26 and the function tables of
/repo/include/rtti/detail/variant_impl.h:52-335 and /repo/include/rtti/metatype.h:221-416.

Objects get numbers when they are constructed, heap blocks when they are allocated. A history of constructor and
destructor calls and of allocations is kept beside the state (ghost). User code (copy and move constructors) is a
parameter and may throw; `operator new` may fail.

Simplifications: the value of an object is a number; padding, alignment (see Model/Align.lean) and the bytes of a
union member that is not active are not modelled: `std::swap` of the `ptr` members swaps the whole storage, and
reading it when it does not hold a pointer only sets the ghost flag `odd`. Whether a type is `const` makes no
difference to the tables (`Decay`, `U` strip it), so types are unqualified here. `variant` stored in a variant
(the table at 412-427) is only reached through `argument` and is not here.
-/
set_option autoImplicit false
namespace Rtti.VMem

/-- where a by-value variant keeps an object (variant_impl.h:46-51, 258, 332-335): in the buffer if it fits, on the
    heap otherwise; arrays always on the heap -/
inductive Place
  | small | big | array
deriving DecidableEq, Repr

/-- what the tables know about a type -/
structure Ty where
  place : Place
  /-- is_copy_constructible (for arrays: of the element) -/
  copyable : Bool
  /-- is_move_constructible -/
  movable : Bool
  /-- is_nothrow_copy_constructible -/
  nothrowCopy : Bool
  /-- is_nothrow_move_constructible -/
  nothrowMove : Bool
  /-- is_trivially_destructible and trivially copyable -/
  trivial : Bool
  /-- the copy constructor: the value of the copy, or an exception -/
  copy : Nat → Option Nat
  /-- the move constructor: the value of the new object and what remains in the source, or an exception -/
  move : Nat → Option (Nat × Nat)

/-- the program around the variants: its types, and which allocations fail -/
structure Prog where
  ty : Nat → Ty
  oom : Nat → Bool

/-- a live object -/
structure Obj where
  type : Nat
  val : Nat
deriving DecidableEq, Repr

/-- ghost history -/
inductive Ev
  | ctor (id type : Nat)
  | dtor (id type : Nat)
  | alloc (b : Nat)
  | free (b : Nat)
deriving DecidableEq, Repr

structure Mem where
  objs : Nat → Option Obj
  nextObj : Nat
  /-- allocated blocks, with the object in it -/
  blocks : Nat → Option (Option Nat)
  nextBlock : Nat
  log : List Ev
  /-- a pointer was read from storage that holds none -/
  odd : Bool

/-- how a call ends -/
inductive Out (A : Type)
  | ok (a : A)
  | threw
  | terminated
  | ub
deriving DecidableEq, Repr

abbrev M (A : Type) := Mem → Out A × Mem

def M.pure {A : Type} (a : A) : M A := fun m => (.ok a, m)
def M.ub {A : Type} : M A := fun m => (.ub, m)
def M.threw {A : Type} : M A := fun m => (.threw, m)

def M.bind {A B : Type} (f : M A) (g : A → M B) : M B := fun m =>
  match f m with
  | (.ok a, m') => g a m'
  | (.threw, m') => (.threw, m')
  | (.terminated, m') => (.terminated, m')
  | (.ub, m') => (.ub, m')

instance : Monad M where
  pure := M.pure
  bind := M.bind

/-- a function declared `noexcept(c)` -/
def noexcept {A : Type} (c : Bool) (f : M A) : M A := fun m =>
  match f m with
  | (.threw, m') => if c then (.terminated, m') else (.threw, m')
  | r => r

/-- metatype.h:224-227 -/
def allocate (P : Prog) : M Nat := fun m =>
  if P.oom m.nextBlock then (.threw, { m with nextBlock := m.nextBlock + 1 })
  else (.ok m.nextBlock, { m with blocks := upd m.blocks m.nextBlock (some none), nextBlock := m.nextBlock + 1,
                                  log := .alloc m.nextBlock :: m.log })

/-- metatype.h:229-233 -/
def deallocate (b : Nat) : M Unit := fun m =>
  match m.blocks b with
  | none => (.ub, m)
  | some _ => (.ok (), { m with blocks := upd m.blocks b none, log := .free b :: m.log })

/-- a constructor has run -/
def born (t v : Nat) : M Nat := fun m =>
  (.ok m.nextObj, { m with objs := upd m.objs m.nextObj (some ⟨t, v⟩), nextObj := m.nextObj + 1,
                           log := .ctor m.nextObj t :: m.log })

/-- metatype.h:288-293 (arrays 385-397) -/
def destroyObj (t id : Nat) : M Unit := fun m =>
  match m.objs id with
  | none => (.ub, m)
  | some o => if o.type = t then (.ok (), { m with objs := upd m.objs id none, log := .dtor id t :: m.log }) else (.ub, m)

/-- metatype.h:252-263: the value `v` is copied into a new object. Arrays (345-358) use `std::copy`, an assignment
    to objects that do not exist, which only trivial elements survive. -/
def copyVal (P : Prog) (t v : Nat) : M Nat := fun m =>
  if (P.ty t).copyable = false then (.threw, m)
  else if (P.ty t).place = .array ∧ (P.ty t).trivial = false then (.ub, m)
  else match (P.ty t).copy v with
    | none => (.threw, m)
    | some v' => born t v' m

/-- copying a stored object -/
def copyObj (P : Prog) (t id : Nat) : M Nat := fun m =>
  match m.objs id with
  | none => (.ub, m)
  | some o => if o.type = t then copyVal P t o.val m else (.ub, m)

/-- metatype.h:280-286 with 265-276 (arrays 360-383): moving the value `v` into a new object; also gives what
    remains in the source -/
def moveVal (P : Prog) (t v : Nat) : M (Nat × Nat) := fun m =>
  if (P.ty t).movable = true then
    if (P.ty t).place = .array ∧ (P.ty t).trivial = false then (.ub, m)
    else match (P.ty t).move v with
      | none => (.threw, m)
      | some (v', r) =>
        match born t v' m with
        | (.ok id, m') => (.ok (id, r), m')
        | (_, m') => (.ub, m')
  else
    match copyVal P t v m with
    | (.ok id, m') => (.ok (id, v), m')
    | (.threw, m') => (.threw, m')
    | (.terminated, m') => (.terminated, m')
    | (.ub, m') => (.ub, m')

/-- moving out of a stored object, which stays alive with what remains -/
def moveObj (P : Prog) (t id : Nat) : M Nat := fun m =>
  match m.objs id with
  | none => (.ub, m)
  | some o =>
    if o.type = t then
      match moveVal P t o.val m with
      | (.ok (id', r), m') => (.ok id', { m' with objs := upd m'.objs id (some ⟨t, r⟩) })
      | (.threw, m') => (.threw, m')
      | (.terminated, m') => (.terminated, m')
      | (.ub, m') => (.ub, m')
    else (.ub, m)

/-- the bytes of `storage` (variant.h:22-26) -/
inductive Cell
  /-- never written -/
  | raw
  | null
  /-- the buffer holds an object -/
  | obj (id : Nat)
  /-- `ptr` to a heap block -/
  | block (b : Nat)
  /-- `ptr` to an object of the program -/
  | ext (a : Nat)
deriving DecidableEq, Repr

/-- which function table -/
inductive Mgr
  /-- the empty variant -/
  | void
  /-- an object of type `t` -/
  | own (t : Nat)
  /-- a reference_wrapper of type `t` -/
  | ref (t : Nat)
deriving DecidableEq, Repr

structure Var where
  mgr : Mgr
  cell : Cell
deriving DecidableEq, Repr

/-- an object was constructed in a block -/
def setBlock (b id : Nat) : M Unit := fun m =>
  match m.blocks b with
  | none => (.ub, m)
  | some _ => (.ok (), { m with blocks := upd m.blocks b (some (some id)) })

/-- the object in a block -/
def inBlock (b : Nat) : M Nat := fun m =>
  match m.blocks b with
  | some (some id) => (.ok id, m)
  | _ => (.ub, m)

/-- `copy_construct` (variant_impl.h:76-80, 203-208, 283-288): from an object of the program with value `v` -/
def fCopyConstruct (P : Prog) (t v : Nat) : M Cell :=
  noexcept (P.ty t).nothrowCopy <|
    match (P.ty t).place with
    | .small => do let id ← copyVal P t v; pure (.obj id)
    | _ => do let b ← allocate P; let id ← copyVal P t v; setBlock b id; pure (.block b)

/-- moving out of an object of the program with value `v` -/
def moveNew (P : Prog) (t v : Nat) : M Nat := do let r ← moveVal P t v; pure r.1

/-- `move_construct` (variant_impl.h:82-86, 210-215, 290-295) -/
def fMoveConstruct (P : Prog) (t v : Nat) : M Cell :=
  noexcept (P.ty t).nothrowMove <|
    match (P.ty t).place with
    | .small => do let id ← moveNew P t v; pure (.obj id)
    | _ => do let b ← allocate P; let id ← moveNew P t v; setBlock b id; pure (.block b)

/-- the object a storage leads to: `&storage.buffer` or `storage.ptr`, depending on the table -/
def locate (p : Place) (c : Cell) : M Nat :=
  match p, c with
  | .small, .obj id => pure id
  | .small, _ => M.ub
  | _, .block b => inBlock b
  | _, _ => M.ub

/-- copying the object a storage leads to -/
def copyFrom (P : Prog) (t : Nat) (src : Cell) : M Nat := do let id ← locate (P.ty t).place src; copyObj P t id

/-- `copy` (variant_impl.h:88-92, 150-153, 217-222, 297-302, 401). Gives the new contents of `dst`. -/
def fCopy (P : Prog) : Mgr → (src dst : Cell) → M Cell
  | .void, _, dst => pure dst
  | .ref _, src, _ => pure src
  | .own t, src, _ => noexcept (P.ty t).nothrowCopy <|
    match (P.ty t).place with
    | .small => do let id ← copyFrom P t src; pure (.obj id)
    | _ => do let b ← allocate P; let id ← copyFrom P t src; setBlock b id; pure (.block b)

/-- `std::swap` reads both pointers -/
def readPtr : Cell → M Unit
  | .raw => fun m => (.ok (), { m with odd := true })
  | .obj _ => fun m => (.ok (), { m with odd := true })
  | _ => pure ()

/-- `move` (variant_impl.h:94-98, 155-158, 224-227, 304-307, 402). Gives the new contents of `src` and `dst`. -/
def fMove (P : Prog) : Mgr → (src dst : Cell) → M (Cell × Cell)
  | .void, src, dst => pure (src, dst)
  | .ref _, src, _ => pure (src, src)
  | .own t, src, dst =>
    match (P.ty t).place, src with
    | .small, .obj id => noexcept (P.ty t).nothrowMove do let id' ← moveObj P t id; pure (.obj id, .obj id')
    | .small, _ => M.ub
    | _, src => do readPtr src; readPtr dst; pure (dst, src)

/-- `destroy` (variant_impl.h:100-103, 160-161, 229-233, 309-313, 403) -/
def fDestroy (P : Prog) : Mgr → Cell → M Unit
  | .void, _ => pure ()
  | .ref _, _ => pure ()
  | .own t, c =>
    match (P.ty t).place, c with
    | .small, .obj id => destroyObj t id
    | .small, _ => M.ub
    | p, .block b => do let id ← locate p (.block b); destroyObj t id; deallocate b
    | _, _ => M.ub

/-- `variant::swap` of two different variants (variant.cpp:42-77) -/
def swap (P : Prog) (x y : Var) : M (Var × Var) := noexcept true <|
  if x.mgr = .void then
    if y.mgr = .void then pure (x, y)
    else do
      let (_, d) ← fMove P y.mgr y.cell x.cell
      pure (⟨y.mgr, d⟩, ⟨.void, .null⟩)
  else if y.mgr = .void then do
    let (_, d) ← fMove P x.mgr x.cell y.cell
    pure (⟨.void, .null⟩, ⟨x.mgr, d⟩)
  else do
    let (xs, temporary) ← fMove P x.mgr x.cell .raw
    let (ys, xs) ← fMove P y.mgr y.cell xs
    let (_, ys) ← fMove P x.mgr temporary ys
    pure (⟨y.mgr, xs⟩, ⟨x.mgr, ys⟩)

/-- `variant::swap` of a variant with itself: the second `f_move` moves the storage onto itself. For an object in
    the buffer this constructs it from itself. -/
def swapSelf (P : Prog) (x : Var) : M Var := noexcept true <|
  match x.mgr with
  | .void => pure x
  | .ref _ => pure x
  | .own t =>
    match (P.ty t).place, x.cell with
    | .small, .obj id =>
      if (P.ty t).trivial then do
        let tmp ← moveObj P t id
        let id' ← moveObj P t tmp
        pure ⟨x.mgr, .obj id'⟩
      else M.ub
    | .small, _ => M.ub
    | _, c => do
      readPtr .raw
      pure ⟨x.mgr, c⟩

/-- `variant::clear` (variant.cpp:79-84) -/
def clear (P : Prog) (x : Var) : M Var := do
  fDestroy P x.mgr x.cell
  pure ⟨.void, .null⟩

/-- `variant::variant()` (variant.cpp:7-9): the storage is not initialised -/
def fresh : Var := ⟨.void, .raw⟩

/-- `variant::variant(variant const&)` (variant.cpp:11-15) -/
def copyOf (P : Prog) (y : Var) : M Var := do
  let c ← fCopy P y.mgr y.cell .raw
  pure ⟨y.mgr, c⟩

/-- the live variants; `none` is the temporary of an assignment -/
structure State where
  env : Option Nat → Option Var
  mem : Mem

def init : State := ⟨fun _ => none, ⟨fun _ => none, 0, fun _ => none, 0, [], false⟩⟩

/-- what a program does with variants. `x`, `y` name variants -/
inductive Cmd
  /-- `variant x;` -/
  | empty (x : Nat)
  /-- `variant x{obj};` with an object of type `t` and value `v`, passed as an rvalue or not -/
  | value (x t v : Nat) (rvalue : Bool)
  /-- `variant x{std::ref(obj)};` with the object at `a` -/
  | ref (x t a : Nat)
  /-- `variant x{y};` -/
  | copy (x y : Nat)
  /-- `variant x{std::move(y)};` -/
  | move (x y : Nat)
  /-- `x = y;` -/
  | assign (x y : Nat)
  /-- `x = std::move(y);` -/
  | assignMove (x y : Nat)
  /-- `x = obj;` -/
  | assignValue (x t v : Nat) (rvalue : Bool)
  /-- `x = std::ref(obj);` -/
  | assignRef (x t a : Nat)
  /-- `swap(x, y);` -/
  | swap (x y : Nat)
  | clear (x : Nat)
  /-- the end of `x`'s life -/
  | destroy (x : Nat)
deriving DecidableEq, Repr

abbrev Step := State → Out Unit × State

def lift {A : Type} (f : M A) (k : A → State → State) : Step := fun s =>
  match f s.mem with
  | (.ok a, m) => (.ok (), k a { s with mem := m })
  | (.threw, m) => (.threw, { s with mem := m })
  | (.terminated, m) => (.terminated, { s with mem := m })
  | (.ub, m) => (.ub, { s with mem := m })

def put (k : Option Nat) (v : Option Var) (s : State) : State := { s with env := upd s.env k v }

def seq (f g : Step) : Step := fun s =>
  match f s with
  | (.ok _, s') => g s'
  | r => r

/-- the variant `k` is copy-constructed from `l` -/
def newCopy (P : Prog) (k l : Option Nat) : Step := fun s =>
  match s.env l with
  | none => (.ok (), s)
  | some y => lift (copyOf P y) (fun v => put k (some v)) s

/-- `x.swap(y)` -/
def doSwap (P : Prog) (k l : Option Nat) : Step := fun s =>
  match s.env k, s.env l with
  | some x, some y =>
    if k = l then lift (swapSelf P x) (fun v => put k (some v)) s
    else lift (VMem.swap P x y) (fun v s => put l (some v.2) (put k (some v.1) s)) s
  | _, _ => (.ok (), s)

/-- `variant k;` -/
def newEmpty (k : Option Nat) : Step := fun s => (.ok (), put k (some fresh) s)

/-- `variant::~variant` (variant.cpp:36-39) -/
def doDestroy (P : Prog) (k : Option Nat) : Step := fun s =>
  match s.env k with
  | none => (.ok (), s)
  | some x => lift (VMem.clear P x) (fun _ => put k none) s

def doClear (P : Prog) (k : Option Nat) : Step := fun s =>
  match s.env k with
  | none => (.ok (), s)
  | some x => lift (VMem.clear P x) (fun v => put k (some v)) s

/-- `variant::variant(variant&&)` (variant.cpp:24-28) -/
def newMove (P : Prog) (k l : Option Nat) : Step := seq (newEmpty k) (doSwap P k l)

/-- `variant::variant(T&&)` (variant_impl.h:429-443). The static_assert refuses what can be neither copied nor moved. -/
def newValue (P : Prog) (k : Option Nat) (t v : Nat) (rvalue : Bool) : Step := fun s =>
  if (P.ty t).copyable || (rvalue && (P.ty t).movable) then
    lift (if rvalue then fMoveConstruct P t v else fCopyConstruct P t v) (fun c => put k (some ⟨.own t, c⟩)) s
  else (.ok (), s)

/-- the same with a reference_wrapper (variant_impl.h:138-148) -/
def newRef (k : Option Nat) (t a : Nat) : Step := fun s => (.ok (), put k (some ⟨.ref t, .ext a⟩) s)

/-- `variant{...}.swap(*this)` and the end of the temporary (variant.cpp:17-22, 30-35, variant_impl.h:445-450) -/
def viaTemp (P : Prog) (mk : Step) (x : Nat) : Step := seq mk (seq (doSwap P none (some x)) (doDestroy P none))

def isLive (s : State) (x : Nat) : Bool := (s.env (some x)).isSome

/-- One command. A command that is not a valid use of its variables (creating one twice, using one that does not
    exist, storing what cannot be stored) does nothing. -/
def exec (P : Prog) (c : Cmd) (s : State) : Out Unit × State :=
  match c with
  | .empty x => if isLive s x then (.ok (), s) else newEmpty (some x) s
  | .value x t v r => if isLive s x then (.ok (), s) else newValue P (some x) t v r s
  | .ref x t a => if isLive s x then (.ok (), s) else newRef (some x) t a s
  | .copy x y => if isLive s x || !isLive s y then (.ok (), s) else newCopy P (some x) (some y) s
  | .move x y => if isLive s x || !isLive s y then (.ok (), s) else newMove P (some x) (some y) s
  | .assign x y =>
    if !isLive s x || !isLive s y || decide (x = y) then (.ok (), s)
    else viaTemp P (newCopy P none (some y)) x s
  | .assignMove x y =>
    if !isLive s x || !isLive s y || decide (x = y) then (.ok (), s)
    else viaTemp P (newMove P none (some y)) x s
  | .assignValue x t v r =>
    if !isLive s x || !((P.ty t).copyable || (r && (P.ty t).movable)) then (.ok (), s)
    else viaTemp P (newValue P none t v r) x s
  | .assignRef x t a => if !isLive s x then (.ok (), s) else viaTemp P (newRef none t a) x s
  | .swap x y => doSwap P (some x) (some y) s
  | .clear x => doClear P (some x) s
  | .destroy x => doDestroy P (some x) s

/-- a program; it goes on after an exception (someone caught it), but not after termination -/
def run (P : Prog) : List Cmd → State → Out Unit × State
  | [], s => (.ok (), s)
  | c :: cs, s =>
    match exec P c s with
    | (.ok _, s') => run P cs s'
    | (.threw, s') => run P cs s'
    | r => r

end Rtti.VMem
