import Verif.Model.World
/-
Converters registered, removed and run by several threads, as interleaved steps.
  /repo/include/rtti/metatype.h:777-800 (`registerConverter_imp` with its function-local static), /repo/src/metatype.cpp:323-455.
The static `converter` of `registerConverter_imp<From, To, Func>` is initialised by the first thread to get there with what that
thread passed; the others wait and then use it ([stmt.dcl]). `MetaTypeFunctionList::add`, `remove`, `find` and `get` hold the
list's lock: one step each. `MetaType::convert` runs the converter after `get` has released the lock.
Simplifications: the types are registered already (C67), so a pair of types is a key `k`; `f` numbers the types of functors used
for it and `v` is the functor itself; copying it does not throw; no static is destroyed meanwhile (C04).
-/
set_option autoImplicit false
namespace Rtti.ConvRace

inductive Req
  /-- `MetaType::registerConverter<From, To>(v)`, `v` of type `f` -/
  | register (k f v : Nat)
  /-- `MetaType::unregisterConverter<From, To>()` -/
  | unregister (k : Nat)
  /-- `MetaType::hasConverter<From, To>()` -/
  | has (k : Nat)
  /-- `MetaType::convert(...)`: which function is run, if any -/
  | convert (k : Nat)
deriving DecidableEq, Repr

inductive Ans
  | flag (b : Bool)
  | none
  | ran (v : Option Nat)
deriving DecidableEq, Repr

/-- a function-local static -/
inductive Static
  | fresh
  | busy (i : Nat)
  | made (v : Nat)
deriving DecidableEq, Repr

inductive Pc
  | idle
  /-- at the declaration of the static -/
  | guard (k f v : Nat)
  /-- initialising it -/
  | make (k f v : Nat)
  /-- at `list->add` -/
  | add (k f v : Nat)
  /-- before the only critical section of `unregister`, `has`, `convert` -/
  | lock (r : Req)
  /-- `convert` with the converter it found -/
  | invoke (k : Nat) (f : Option Nat)
deriving DecidableEq, Repr

structure Thread where
  todo : List Req
  pc : Pc
  results : List (Req × Ans)

/-- ghost: what a critical section did -/
structure Ev where
  thread : Nat
  req : Req
  ans : Ans
  /-- the converter the call used -/
  used : Option Nat
deriving DecidableEq, Repr

structure State where
  /-- `customConverters()`: pointers to the statics -/
  table : Nat → Option Nat
  static : Nat → Nat → Static
  threads : Nat → Thread
  /-- ghost: the critical sections so far, in order -/
  log : List Ev

def init (programs : Nat → List Req) : State :=
  ⟨fun _ => none, fun _ _ => .fresh, fun i => ⟨programs i, .idle, []⟩, []⟩

/-- functor in a static -/
def State.value (s : State) (k f : Nat) : Option Nat := match s.static k f with | .made v => some v | _ => none

def State.put (s : State) (i : Nat) (pc : Pc) : State := { s with threads := upd s.threads i { s.threads i with pc := pc } }

/-- return from a call -/
def State.ret (s : State) (i : Nat) (r : Req) (a : Ans) : State :=
  { s with threads := upd s.threads i { s.threads i with pc := .idle, results := (s.threads i).results ++ [(r, a)] } }

/-- one step of thread `i`; `none`: it has to wait, or has nothing left to do, or (never, C72) uses an uninitialised static -/
def step (s : State) (i : Nat) : Option State :=
  match (s.threads i).pc with
  | .idle =>
    match (s.threads i).todo with
    | [] => none
    | r :: rest =>
      let pc := match r with | .register k f v => .guard k f v | r => .lock r
      some { s with threads := upd s.threads i { s.threads i with todo := rest, pc := pc } }
  | .guard k f v =>
    match s.static k f with
    | .fresh => some { s.put i (.make k f v) with static := upd s.static k (upd (s.static k) f (.busy i)) }
    | .busy _ => none
    | .made _ => some (s.put i (.add k f v))
  | .make k f v => some { s.put i (.add k f v) with static := upd s.static k (upd (s.static k) f (.made v)) }
  | .add k f v =>
    match s.table k with
    | some _ =>
      some { s.ret i (.register k f v) (.flag false) with log := s.log ++ [⟨i, .register k f v, .flag false, s.value k f⟩] }
    | none =>
      some { s.ret i (.register k f v) (.flag true) with
        table := upd s.table k (some f), log := s.log ++ [⟨i, .register k f v, .flag true, s.value k f⟩] }
  | .lock (.unregister k) =>
    some { s.ret i (.unregister k) .none with table := upd s.table k none, log := s.log ++ [⟨i, .unregister k, .none, none⟩] }
  | .lock (.has k) =>
    some { s.ret i (.has k) (.flag (s.table k).isSome) with log := s.log ++ [⟨i, .has k, .flag (s.table k).isSome, none⟩] }
  | .lock (.convert k) =>
    let r := (s.table k).bind (s.value k)
    some { s.put i (.invoke k (s.table k)) with log := s.log ++ [⟨i, .convert k, .ran r, r⟩] }
  | .lock (.register _ _ _) => none
  | .invoke k none => some (s.ret i (.convert k) (.ran none))
  | .invoke k (some f) =>
    match s.static k f with
    | .made v => some (s.ret i (.convert k) (.ran (some v)))
    | _ => none

/-- any schedule: a thread that has to wait stays where it is -/
def run (s : State) : List Nat → State
  | [] => s
  | i :: is => run ((step s i).getD s) is

end Rtti.ConvRace
