import Verif.Model.NamedList
import Verif.Model.World
/-
Attributes (and enum elements), several threads: `NamedVariantList::set` and `get`
(/repo/src/private/metaitem_p.h:53-70, /repo/src/metaitem.cpp:13-31). `get` returns a reference to the stored
variant; the lock is released when it returns, so the caller reads the variant without the lock. `set` of a name
that is there assigns to the stored variant. A reference to a variant in the list is its position (the items are
boxed in `unique_ptr`s and never removed, so their addresses are as stable as their positions).
-/
set_option autoImplicit false
namespace Rtti.AttrRace
variable {V : Type}

/-- what threads do next -/
inductive Act (V : Type)
  /-- `get(name)`, one critical section -/
  | lookup (t : Nat) (n : Str)
  /-- enter `set(name, value)`: take the lock in exclusive mode -/
  | lock (t : Nat) (n : Str) (v : V)
  /-- the rest of `set`, and release the lock -/
  | write (t : Nat)
  /-- read the variant the thread has a reference to -/
  | read (t : Nat)

structure State (V : Type) where
  list : NamedList V
  /-- the holder of the exclusive lock and its arguments -/
  writer : Option (Nat × Str × V)
  /-- the reference a thread got from its last `get`; `none`: to the constant `variant::empty_variant` -/
  ref : Nat → Option Nat
  /-- what it last read -/
  seen : Nat → Option V
  /-- ghost: the name it last looked up -/
  asked : Nat → Str
  /-- ghost: the `set` calls completed -/
  hist : List (Str × V)

def init : State V := ⟨NamedList.empty, none, fun _ => none, fun _ => none, fun _ => [], []⟩

/-- a step that has to wait changes nothing -/
def step (s : State V) : Act V → State V
  | .lookup t n =>
    if n = [] then { s with ref := upd s.ref t none, asked := upd s.asked t n }
    else if s.writer.isSome then s
    else { s with ref := upd s.ref t ((s.list.names n).filter (· < s.list.items.length)), asked := upd s.asked t n }
  | .lock t n v => if n = [] ∨ s.writer.isSome then s else { s with writer := some (t, n, v) }
  | .write t =>
    match s.writer with
    | some (t', n, v) =>
      if t' = t then
        match s.list.set n v with
        | some l => { s with list := l, writer := none, hist := s.hist ++ [(n, v)] }
        | none => { s with writer := none }
      else s
    | none => s
  | .read t =>
    match s.ref t with
    | some i => { s with seen := upd s.seen t ((s.list.items[i]?).map Prod.snd) }
    | none => { s with seen := upd s.seen t none }

def run (s : State V) : List (Act V) → State V
  | [] => s
  | a :: as => run (step s a) as

/-- thread `t` is about to assign to a variant that thread `t'` is free to read -/
def Racing (s : State V) (t t' : Nat) : Prop :=
  t ≠ t' ∧ ∃ n v i, s.writer = some (t, n, v) ∧ s.list.names n = some i ∧ s.ref t' = some i

end Rtti.AttrRace
