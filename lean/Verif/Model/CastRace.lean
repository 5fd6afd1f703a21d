import Verif.Model.World
/-
Several threads that declare base classes and cast pointers upwards.
  /repo/src/metaclass.cpp:92-106, 123-174, /repo/src/private/metaclass_p.h:50-107.
`MetaClass::cast` runs `BaseClassList::for_each`, which holds the list's `shared_mutex` in shared mode. For each item it asks
`directBase->inheritedFrom(base)`, a walk of its own that takes and gives back the locks of the classes it goes through, and if
the answer is yes it applies the item's caster and goes on with `directBase->cast(base, ...)`, the lock still held. In between
another thread may declare bases for the classes further up. Locks are RAII, so who holds what is read off where the threads are.
Whether a reader has to wait for a writer that waits is up to the implementation of `shared_mutex`: parameter `fair`.
Simplifications: classes are their `MetaClass` objects (`find` by type never changes once a class is registered, and only
registered classes can be bases, C25); no pending lazy definition; casters are functions without effects; an answer of
`nullptr` because nothing was found is `none`, so that it differs from a caster's result; `addDerivedClass` takes another lock,
holds no other meanwhile and is not looked at by casts (see Model/WalkRace.lean): left out.
-/
set_option autoImplicit false
namespace Rtti.CastRace

/-- base classes of a class with their casters, in order -/
abbrev Graph := Ptr → List (Ptr × Caster)

inductive Req
  /-- `d->cast(t, x)` -/
  | cast (d t : Ptr) (x : Addr)
  /-- `d->addBaseClass(typeId of b, f)` -/
  | addBase (d b : Ptr) (f : Caster)

/-- a running call -/
structure Call where
  d : Ptr
  t : Ptr
  x : Addr
  /-- ghost: the bases when the call was made -/
  start : Graph

/-- where the walk `inheritedFrom` is, /repo/src/metaclass.cpp:123-145 -/
inductive Test
  /-- about to enter the function for class `y` -/
  | enter (y : Ptr)
  /-- in the innermost `for_each`, after an item that was not the target nor led to it -/
  | loop
  /-- leaving all loops with `true` -/
  | found

/-- where a thread is -/
inductive Pc
  | idle
  /-- about to enter `c->cast(t, x)`, inside the `for_each` of the classes `outer` -/
  | enter (q : Call) (c : Ptr) (x : Addr) (outer : List Ptr)
  /-- in the `for_each` of `c`, the items `rest` still to come -/
  | items (q : Call) (c : Ptr) (x : Addr) (rest : List (Ptr × Caster)) (outer : List Ptr)
  /-- in the `for_each` of `c` at item `b`, `f`, inside `b->inheritedFrom(t)`, which is inside the `for_each` of the classes `fs`
      (with the items still to come). `asked` is ghost: the bases when this walk began. -/
  | test (q : Call) (c : Ptr) (x : Addr) (b : Ptr) (f : Caster) (rest : List (Ptr × Caster)) (outer : List Ptr)
      (asked : Graph) (m : Test) (fs : List (Ptr × List Ptr))
  /-- leaving all `for_each` with the answer `r` -/
  | unwind (q : Call) (r : Option Addr) (outer : List Ptr)
  /-- waiting for the lock of the bases of `d` in exclusive mode -/
  | want (d b : Ptr) (f : Caster)
  /-- holding it -/
  | hold (d b : Ptr) (f : Caster)

/-- the classes whose lock a thread holds in shared mode -/
def Pc.locks : Pc → List Ptr
  | .enter _ _ _ outer => outer
  | .items _ c _ _ outer => c :: outer
  | .test _ c _ _ _ _ outer _ _ fs => fs.map (·.1) ++ c :: outer
  | .unwind _ _ outer => outer
  | _ => []

def Pc.holds (p : Pc) (c : Ptr) : Bool := match p with | .hold d _ _ => d == c | _ => false
def Pc.wants (p : Pc) (c : Ptr) : Bool := match p with | .want d _ _ => d == c | _ => false

/-- one step inside `cast`; `blocked`: the lock of a class cannot be had in shared mode -/
def advance (g : Graph) (blocked : Ptr → Bool) : Pc → Option Pc
  -- /repo/src/metaclass.cpp:152-159
  | .enter q c x outer =>
    if c = q.t then some (.unwind q (some x) outer)
    else if blocked c then none
    else some (.items q c x (g c) outer)
  -- /repo/src/metaclass.cpp:159-171
  | .items q _ _ [] outer => some (.unwind q none outer)
  | .items q c x ((b, f) :: rest) outer => some (.test q c x b f rest outer g (.enter b) [])
  -- /repo/src/metaclass.cpp:123-145
  | .test q c x b f rest outer a m fs =>
    match m, fs with
    | .enter y, fs =>
      if y = q.t then some (.test q c x b f rest outer a .found fs)
      else if blocked y then none
      else some (.test q c x b f rest outer a .loop ((y, (g y).map (·.1)) :: fs))
    | .loop, [] => some (.items q c x rest outer)
    | .loop, (_, []) :: fs => some (.test q c x b f rest outer a .loop fs)
    | .loop, (y, z :: zs) :: fs => some (.test q c x b f rest outer a (.enter z) ((y, zs) :: fs))
    -- /repo/src/metaclass.cpp:166
    | .found, [] => some (.enter q b (f x) (c :: outer))
    | .found, _ :: fs => some (.test q c x b f rest outer a .found fs)
  | .unwind q r (_ :: outer) => some (.unwind q r outer)
  | _ => none

/-- an answer with the bases at the moment it was given (ghost) -/
structure Answer where
  q : Call
  r : Option Addr
  stop : Graph

structure Thread where
  todo : List Req
  pc : Pc
  answers : List Answer

structure State where
  bases : Graph
  /-- number of threads -/
  n : Nat
  threads : Nat → Thread

def init (n : Nat) (programs : Nat → List Req) : State := ⟨fun _ => [], n, fun i => ⟨programs i, .idle, []⟩⟩

namespace State

/-- some thread holds the lock of `c` in shared / exclusive mode, or waits to hold it in exclusive mode -/
def reading (s : State) (c : Ptr) : Bool := (List.range s.n).any fun j => (s.threads j).pc.locks.any (· == c)
def writing (s : State) (c : Ptr) : Bool := (List.range s.n).any fun j => (s.threads j).pc.holds c
def waiting (s : State) (c : Ptr) : Bool := (List.range s.n).any fun j => (s.threads j).pc.wants c

def put (s : State) (i : Nat) (t : Thread) : State := { s with threads := upd s.threads i t }

end State

/-- `BaseClassList::add`: `emplace_back` unless the type is there, /repo/src/private/metaclass_p.h:55-62 -/
def append (l : List (Ptr × Caster)) (b : Ptr) (f : Caster) : List (Ptr × Caster) :=
  if l.any (fun it => it.1 == b) then l else l ++ [(b, f)]

/-- one step of thread `i`; `none`: it has to wait, or has nothing left to do -/
def step (fair : Bool) (s : State) (i : Nat) : Option State :=
  if s.n ≤ i then none
  else match (s.threads i).pc with
    | .idle =>
      match (s.threads i).todo with
      | [] => none
      | .cast d t x :: rest => some (s.put i { s.threads i with todo := rest, pc := .enter ⟨d, t, x, s.bases⟩ d x [] })
      | .addBase d b f :: rest => some (s.put i { s.threads i with todo := rest, pc := .want d b f })
    | .unwind q r [] => some (s.put i { s.threads i with pc := .idle, answers := (s.threads i).answers ++ [⟨q, r, s.bases⟩] })
    | .want d b f =>
      if s.reading d || s.writing d then none else some (s.put i { s.threads i with pc := .hold d b f })
    | .hold d b f => some { s.put i { s.threads i with pc := .idle } with bases := upd s.bases d (append (s.bases d) b f) }
    | p =>
      match advance s.bases (fun c => s.writing c || (fair && s.waiting c)) p with
      | none => none
      | some p' => some (s.put i { s.threads i with pc := p' })

/-- any schedule: a thread that has to wait stays where it is -/
def run (fair : Bool) (s : State) : List Nat → State
  | [] => s
  | i :: is => run fair ((step fair s i).getD s) is

/-- thread `i` has something left to do -/
def Busy (s : State) (i : Nat) : Prop := i < s.n ∧ ((s.threads i).pc ≠ .idle ∨ (s.threads i).todo ≠ [])

end Rtti.CastRace
