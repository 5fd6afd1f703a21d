import Verif.Model.World
/-
Get-or-create by several threads on one member list of one container, as a small-step machine.
  /repo/src/metanamespace.cpp:25-38, /repo/src/metaenum.cpp:10-23, /repo/src/metamethod.cpp:22-40,
  /repo/src/metaproperty.cpp:15-32, /repo/src/metaconstructor.cpp:10-28, /repo/src/metaclass.cpp:17-42.
One step is one critical section of `MetaItemList` (get, findMethod: shared lock; add: exclusive lock),
one allocation / deletion, or one atomic load / store of `TypeInfo::metaClass`. The scheduler is
arbitrary: any thread may take the next step. Memory is sequentially consistent (the lists are guarded
by a mutex, `metaClass` is a seq_cst atomic). No pending lazy definition, no base class.
-/
namespace Rtti.Race
open Rtti

/-- how the create function looks for an existing item -/
inductive LookKind
  /-- `getNamespace`, `getEnum`, `getClass`, `getProperty` of a namespace -/
  | byName
  /-- `getMethod` of a namespace, `getConstructor` -/
  | bySignature
deriving DecidableEq, Repr

def look (k : LookKind) (l : ItemList) (n : Str) : Option Ptr :=
  match k with
  | .byName => (l.get n).map (·.ptr)
  | .bySignature => match findMethod n l.items with
    | some (some it) => some it.ptr
    | _ => none

/-- a call `create(name, owner[, type])`; `type` only for classes -/
structure Req where
  name : Str
  type : Option TypeId
deriving DecidableEq, Repr

inductive Outcome
  | obj (p : Ptr)
  | null
  | threw (e : Err)
deriving DecidableEq, Repr

/-- program counter of a thread inside a create function -/
inductive Pc
  | idle
  | start (r : Req)
  /-- look-up returned null -/
  | miss (r : Req)
  /-- checks done -/
  | checked (r : Req)
  | allocated (r : Req) (p : Ptr)
  | refused (r : Req) (p : Ptr)
  | deleted (r : Req)
  /-- added, class not yet stored into `TypeInfo::metaClass` -/
  | added (r : Req) (t : TypeId) (p : Ptr)
deriving DecidableEq, Repr

structure Thread where
  todo : List Req
  pc : Pc
  results : List (Req × Outcome)

structure State where
  list : ItemList
  next : Ptr
  /-- allocated and not deleted -/
  alive : Ptr → Bool
  /-- type of a class object -/
  typeOf : Ptr → Option TypeId
  valid : TypeId → Bool
  metaClass : TypeId → Option Ptr
  threads : Nat → Thread

def init (valid : TypeId → Bool) (programs : Nat → List Req) : State where
  list := ItemList.empty
  next := 1
  alive := fun _ => false
  typeOf := fun _ => none
  valid := valid
  metaClass := fun _ => none
  threads := fun i => ⟨programs i, .idle, []⟩

def Thread.finish (t : Thread) (r : Req) (o : Outcome) : Thread :=
  { t with pc := .idle, results := t.results ++ [(r, o)] }

def toOutcome : Option Ptr → Outcome
  | some p => .obj p
  | none => .null

/-- one step of thread `i` -/
def step (k : LookKind) (s : State) (i : Nat) : State :=
  let t := s.threads i
  let set (t' : Thread) : Nat → Thread := upd s.threads i t'
  match t.pc with
  | .idle => match t.todo with
    | [] => s
    | r :: rest => { s with threads := set { t with todo := rest, pc := .start r } }
  | .start r => match look k s.list r.name with
    | some p => { s with threads := set (t.finish r (.obj p)) }
    | none => { s with threads := set { t with pc := .miss r } }
  | .miss r => match r.type with
    | none => { s with threads := set { t with pc := .checked r } }
    | some ty =>
      if !s.valid ty then { s with threads := set (t.finish r (.threw .invalidTypeId)) }
      else if (s.metaClass ty).isSome then
        { s with threads := set (t.finish r (.threw .duplicateClass)) }
      else { s with threads := set { t with pc := .checked r } }
  | .checked r =>
    { s with
      next := s.next + 1
      alive := upd s.alive s.next true
      typeOf := upd s.typeOf s.next r.type
      threads := set { t with pc := .allocated r s.next } }
  | .allocated r p =>
    let a := s.list.add (some ⟨p, r.name⟩)
    if a.2 then
      match r.type with
      | some ty => { s with list := a.1, threads := set { t with pc := .added r ty p } }
      | none => { s with list := a.1, threads := set (t.finish r (.obj p)) }
    else { s with list := a.1, threads := set { t with pc := .refused r p } }
  | .refused r p =>
    { s with alive := upd s.alive p false, threads := set { t with pc := .deleted r } }
  | .deleted r => { s with threads := set (t.finish r (toOutcome (look k s.list r.name))) }
  | .added r ty p =>
    { s with metaClass := upd s.metaClass ty (some p), threads := set (t.finish r (.obj p)) }

/-- a schedule: which thread moves next -/
def run (k : LookKind) (s : State) : List Nat → State
  | [] => s
  | i :: is => run k (step k s i) is

end Rtti.Race
