import Verif.Model.World
/-
Several threads that add items to lists, read them, and enumerate them with functions that use the lists again.
  /repo/src/metacontainer.cpp:21-72, 255-275, 338-350, /repo/src/private/metacontainer_p.h:28-46, and the same code for named
  values in /repo/src/private/metaitem_p.h:30-85.
`MetaItemList::for_each` calls the user's function while it holds the list's `shared_mutex` in shared mode. `get`, `size` and
`findMethod` take it in shared mode, call nothing and are one step; `add` takes it in exclusive mode. Locks are RAII, so who holds
what is read off where the threads are. Whether a reader has to wait for a writer that waits is up to the implementation of
`shared_mutex`: parameter `fair` (libc++ and the Windows lock make it wait, the default lock of glibc does not). A thread that
takes a lock it already holds is treated like any other thread (the standard leaves it undefined).
Simplifications: lists are numbered (a container has six of them); no pending lazy definition.
-/
set_option autoImplicit false
namespace Rtti.EachRace

abbrev Lst := Nat

/-- what a thread, or a function given to `for_each`, does -/
inductive Prog
  /-- finished; the result of a function: go on with the next item? -/
  | ret (more : Bool)
  /-- `get`, `size`, `findMethod`: read the list and go on with what was found -/
  | read (l : Lst) (k : ItemList → Prog)
  /-- `add` -/
  | add (l : Lst) (x : Item) (k : Bool → Prog)
  /-- `for_each(f)`, then go on with `k` -/
  | each (l : Lst) (f : Item → Prog) (k : Prog)

/-- a running `for_each` -/
structure Frame where
  l : Lst
  /-- ghost: the items the function was called with -/
  seen : List Item
  rest : List Item
  f : Item → Prog
  k : Prog

inductive Pc
  | run (p : Prog) (fs : List Frame)
  /-- waiting for the lock in exclusive mode -/
  | want (l : Lst) (x : Item) (k : Bool → Prog) (fs : List Frame)
  /-- holding it -/
  | hold (l : Lst) (x : Item) (k : Bool → Prog) (fs : List Frame)

/-- the enumerations a thread is in: the lists whose lock it holds in shared mode -/
def Pc.frames : Pc → List Frame
  | .run _ fs => fs
  | .want _ _ _ fs => fs
  | .hold _ _ _ fs => fs

def Pc.holds (p : Pc) (l : Lst) : Bool := match p with | .hold l' _ _ _ => l' == l | _ => false
def Pc.wants (p : Pc) (l : Lst) : Bool := match p with | .want l' _ _ _ => l' == l | _ => false

/-- a finished enumeration: the list, the items the function was called with, and what it answered last -/
structure Done where
  l : Lst
  seen : List Item
  more : Bool

structure State where
  lists : Lst → ItemList
  /-- number of threads -/
  n : Nat
  pc : Nat → Pc
  /-- ghost: the enumerations that have ended, the latest first, with the list as it is then -/
  log : List (Done × ItemList)

def init (n : Nat) (programs : Nat → Prog) : State := ⟨fun _ => .empty, n, fun i => .run (programs i) [], []⟩

namespace State

/-- some thread holds the lock of `l` in shared / exclusive mode, or waits to hold it in exclusive mode -/
def reading (s : State) (l : Lst) : Bool := (List.range s.n).any fun j => (s.pc j).frames.any fun f => f.l == l
def writing (s : State) (l : Lst) : Bool := (List.range s.n).any fun j => (s.pc j).holds l
def waiting (s : State) (l : Lst) : Bool := (List.range s.n).any fun j => (s.pc j).wants l

def put (s : State) (i : Nat) (pc : Pc) : State := { s with pc := upd s.pc i pc }

end State

/-- one step of thread `i`; `none`: it has to wait, or has nothing left to do -/
def step (fair : Bool) (s : State) (i : Nat) : Option State :=
  if s.n ≤ i then none
  else match s.pc i with
    | .run (.ret _) [] => none
    | .run (.ret more) (f :: fs) =>
      match more, f.rest with
      | true, x :: rest => some (s.put i (.run (f.f x) ({ f with seen := f.seen ++ [x], rest := rest } :: fs)))
      | more, _ => some { s.put i (.run f.k fs) with log := (⟨f.l, f.seen, more⟩, s.lists f.l) :: s.log }
    | .run (.read l k) fs =>
      if s.writing l || (fair && s.waiting l) then none else some (s.put i (.run (k (s.lists l)) fs))
    | .run (.each l f k) fs =>
      if s.writing l || (fair && s.waiting l) then none
      else some (s.put i (.run (.ret true) (⟨l, [], (s.lists l).items, f, k⟩ :: fs)))
    | .run (.add l x k) fs => some (s.put i (.want l x k fs))
    | .want l x k fs => if s.reading l || s.writing l then none else some (s.put i (.hold l x k fs))
    | .hold l x k fs =>
      some { s.put i (.run (k ((s.lists l).add (some x)).2) fs) with lists := upd s.lists l ((s.lists l).add (some x)).1 }

/-- any schedule: a thread that has to wait stays where it is -/
def run (fair : Bool) (s : State) : List Nat → State
  | [] => s
  | i :: is => run fair ((step fair s i).getD s) is

/-- the thread has returned from everything -/
def Pc.finished : Pc → Bool
  | .run (.ret _) [] => true
  | _ => false

/-- thread `i` has something left to do -/
def Busy (s : State) (i : Nat) : Prop := i < s.n ∧ (s.pc i).finished = false

end Rtti.EachRace
