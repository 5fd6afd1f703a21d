import Verif.Model.World
/-
A lazy definition that fails, several threads: `checkDeferredDefine` (/repo/src/metacontainer.cpp:153-170) as in
Model/LazyRace.lean, with a callback that makes `k` definitions and then throws.

The exception leaves `invoke` (line 166); while it is on its way, the guard of lines 160-164 resets
`m_deferredDefine` and clears the flag; the query that called `checkDeferredDefine` does not answer.
Simplifications: those of Model/LazyRace.lean (each access to `m_deferredDefine` is one step, though it is a plain
`unique_ptr`); the destructor of the callback does not throw.
-/
set_option autoImplicit false
namespace Rtti.LazyFail

/-- where a thread is -/
inductive Pc
  /-- about to test `m_deferredDefine` (line 156) -/
  | start
  /-- found it non-null; about to `exchange` the flag (line 158) -/
  | checked
  /-- the flag was free; about to call through `m_deferredDefine` (line 166) -/
  | owns
  /-- in the callback, having made `i` definitions -/
  | running (i : Nat)
  /-- the exception is on its way: about to reset `m_deferredDefine` (line 162) -/
  | leaving
  /-- the exception is on its way: about to clear the flag (line 163) -/
  | unlocking
  /-- about to answer the query. `found`: it went on because the flag was taken -/
  | query (found : Bool)
  /-- answered: saw `v` definitions -/
  | done (found : Bool) (v : Nat)
  /-- the exception left the query -/
  | threw
deriving DecidableEq, Repr

structure State where
  /-- `m_deferredDefine` is non-null -/
  callback : Bool
  /-- `m_deferredDefine_lock` -/
  flag : Bool
  /-- definitions made so far -/
  defined : Nat
  /-- ghost: number of times the callback was entered -/
  invoked : Nat
  /-- the null `unique_ptr` was dereferenced -/
  ub : Bool
  pc : Nat → Pc

def init : State := ⟨true, false, 0, 0, false, fun _ => .start⟩

/-- thread `t` makes its next step (/repo/src/metacontainer.cpp:153-167) -/
def step (k : Nat) (s : State) (t : Nat) : State :=
  match s.pc t with
  | .start => if s.callback then { s with pc := upd s.pc t .checked } else { s with pc := upd s.pc t (.query false) }
  | .checked =>
    if s.flag then { s with pc := upd s.pc t (.query true) }
    else { s with flag := true, pc := upd s.pc t .owns }
  | .owns =>
    if s.callback then { s with invoked := s.invoked + 1, pc := upd s.pc t (.running 0) } else { s with ub := true }
  | .running i =>
    if i < k then { s with defined := s.defined + 1, pc := upd s.pc t (.running (i + 1)) }
    else { s with pc := upd s.pc t .leaving }
  | .leaving => { s with callback := false, pc := upd s.pc t .unlocking }
  | .unlocking => { s with flag := false, pc := upd s.pc t .threw }
  | .query f => { s with pc := upd s.pc t (.done f s.defined) }
  | .done _ _ => s
  | .threw => s

/-- any interleaving -/
def run (k : Nat) (s : State) : List Nat → State
  | [] => s
  | t :: ts => if s.ub then s else run k (step k s t) ts

end Rtti.LazyFail
