import Verif.Model.World
/-
Several threads that declare base classes and walk the class hierarchy.
  /repo/src/metaclass.cpp:92-145, 181-235, /repo/src/private/metaclass_p.h:12-107.
`BaseClassList::for_each` holds the list's `shared_mutex` in shared mode while the walk goes on in the base classes, so a thread
holds the locks of all classes on the path from the one asked to the one it is at; `BaseClassList::add` takes the lock in
exclusive mode. Locks are RAII, so who holds what is read off where the threads are. Taking a lock is a step that may have to
wait. Whether a reader has to wait for a writer that waits is up to the implementation of `shared_mutex`: parameter `fair`.
A walk looks for the first class that satisfies `hit`: `inheritedFrom(b)` for the class `b`, `getMethod(name)` and
`getProperty(name)` for a class with such a member of its own.
Simplifications: classes are their `MetaClass` objects (`find` by type never changes once a class is registered, and only
registered classes can be bases, C25); no pending lazy definition; members are not defined meanwhile; `DerivedClassList::add`,
which holds its own lock and calls nothing, is one step.
-/
set_option autoImplicit false
namespace Rtti.WalkRace

/-- base classes of a class, in order -/
abbrev Graph := Ptr → List Ptr

inductive Req
  /-- `d->inheritedFrom(b)`, `d->getMethod(name)`, `d->getProperty(name)` -/
  | find (d : Ptr) (hit : Ptr → Bool)
  /-- `d->addBaseClass(typeId of b, ...)` -/
  | addBase (d b : Ptr)

/-- a running walk -/
structure Walk where
  d : Ptr
  hit : Ptr → Bool
  /-- ghost: the bases when the call was made -/
  start : Graph

/-- where a thread is. A frame is a running `for_each`: its class and the items still to come. -/
inductive Pc
  | idle
  /-- about to enter the function for class `c` -/
  | enter (q : Walk) (c : Ptr) (fs : List (Ptr × List Ptr))
  /-- in the innermost `for_each`, after an item that was no hit -/
  | loop (q : Walk) (fs : List (Ptr × List Ptr))
  /-- leaving all loops with the hit `c` -/
  | unwind (q : Walk) (c : Ptr) (fs : List (Ptr × List Ptr))
  /-- waiting for the lock of the bases of `d` in exclusive mode -/
  | want (d b : Ptr)
  /-- holding it -/
  | hold (d b : Ptr)
  /-- before `base->addDerivedClass` -/
  | derive (d b : Ptr)

/-- frames of a thread: the classes whose lock it holds in shared mode -/
def Pc.frames : Pc → List (Ptr × List Ptr)
  | .enter _ _ fs => fs
  | .loop _ fs => fs
  | .unwind _ _ fs => fs
  | _ => []

def Pc.holds (p : Pc) (c : Ptr) : Bool := match p with | .hold d _ => d == c | _ => false
def Pc.wants (p : Pc) (c : Ptr) : Bool := match p with | .want d _ => d == c | _ => false

structure Thread where
  todo : List Req
  pc : Pc
  /-- finished walks with their answers -/
  results : List (Walk × Option Ptr)

structure State where
  bases : Graph
  derived : Ptr → List Ptr
  /-- number of threads -/
  n : Nat
  threads : Nat → Thread

def init (n : Nat) (programs : Nat → List Req) : State :=
  ⟨fun _ => [], fun _ => [], n, fun i => ⟨programs i, .idle, []⟩⟩

namespace State

/-- some thread holds the lock of `c` in shared / exclusive mode, or waits to hold it in exclusive mode -/
def reading (s : State) (c : Ptr) : Bool := (List.range s.n).any fun j => (s.threads j).pc.frames.any fun f => f.1 == c
def writing (s : State) (c : Ptr) : Bool := (List.range s.n).any fun j => (s.threads j).pc.holds c
def waiting (s : State) (c : Ptr) : Bool := (List.range s.n).any fun j => (s.threads j).pc.wants c

def put (s : State) (i : Nat) (pc : Pc) : State := { s with threads := upd s.threads i { s.threads i with pc := pc } }
def done (s : State) (i : Nat) (q : Walk) (r : Option Ptr) : State :=
  { s with threads := upd s.threads i { s.threads i with pc := .idle, results := (s.threads i).results ++ [(q, r)] } }

end State

/-- `push_back` unless there: /repo/src/private/metaclass_p.h:15-21, 55-60 -/
def append (l : List Ptr) (x : Ptr) : List Ptr := if l.contains x then l else l ++ [x]

/-- one step of thread `i`; `none`: it has to wait, or has nothing left to do -/
def step (fair : Bool) (s : State) (i : Nat) : Option State :=
  if s.n ≤ i then none
  else match (s.threads i).pc with
    | .idle =>
      match (s.threads i).todo with
      | [] => none
      | .find d hit :: rest =>
        some { s with threads := upd s.threads i { s.threads i with todo := rest, pc := .enter ⟨d, hit, s.bases⟩ d [] } }
      | .addBase d b :: rest =>
        some { s with threads := upd s.threads i { s.threads i with todo := rest, pc := .want d b } }
    | .enter q c fs =>
      if q.hit c then some (s.put i (.unwind q c fs))
      else if s.writing c || (fair && s.waiting c) then none
      else some (s.put i (.loop q ((c, s.bases c) :: fs)))
    | .loop q fs =>
      match fs with
      | [] => some (s.done i q none)
      | (_, []) :: fs => some (s.put i (.loop q fs))
      | (c, x :: rest) :: fs => some (s.put i (.enter q x ((c, rest) :: fs)))
    | .unwind q c fs =>
      match fs with
      | [] => some (s.done i q (some c))
      | _ :: fs => some (s.put i (.unwind q c fs))
    | .want d b => if s.reading d || s.writing d then none else some (s.put i (.hold d b))
    | .hold d b => some { s.put i (.derive d b) with bases := upd s.bases d (append (s.bases d) b) }
    | .derive d b => some { s.put i .idle with derived := upd s.derived b (append (s.derived b) d) }

/-- any schedule: a thread that has to wait stays where it is -/
def run (fair : Bool) (s : State) : List Nat → State
  | [] => s
  | i :: is => run fair ((step fair s i).getD s) is

/-- thread `i` has something left to do -/
def Busy (s : State) (i : Nat) : Prop := i < s.n ∧ ((s.threads i).pc ≠ .idle ∨ (s.threads i).todo ≠ [])

end Rtti.WalkRace
