import Verif.Model.World
/-
Lazy definitions, several threads: `checkDeferredDefine` (/repo/src/metacontainer.cpp:153-170) followed by the
query that called it, as interleaved steps. Any number of threads query one container with a pending callback that
makes `n` definitions.

Each step is one access to shared data. `m_deferredDefine` is a plain `unique_ptr` (/repo/src/private/metacontainer_p.h:77),
so accesses to it are not atomic; the steps here are the most favourable reading (sequentially consistent). That
the accesses race is stated separately (`Racing`).
Simplifications: the callback does not throw and makes its definitions one by one; what a query sees is how many
of them are there.
-/
set_option autoImplicit false
namespace Rtti.LazyRace

/-- where a thread is -/
inductive Pc
  /-- about to test `m_deferredDefine` -/
  | start
  /-- found it non-null; about to `exchange` the flag -/
  | checked
  /-- the flag was free; about to call through `m_deferredDefine` -/
  | owns
  /-- in the callback, having made `i` definitions -/
  | running (i : Nat)
  /-- about to reset `m_deferredDefine` -/
  | leaving
  /-- about to clear the flag -/
  | unlocking
  /-- about to answer the query. `found`: it went on because the flag was taken -/
  | query (found : Bool)
  /-- answered: saw `v` definitions -/
  | done (found : Bool) (v : Nat)
deriving DecidableEq, Repr

structure State where
  /-- `m_deferredDefine` is non-null -/
  callback : Bool
  /-- `m_deferredDefine_lock` -/
  flag : Bool
  /-- definitions made so far -/
  defined : Nat
  /-- ghost: number of times the callback was entered -/
  invoked : Nat
  /-- the null `unique_ptr` was dereferenced -/
  ub : Bool
  pc : Nat → Pc

def init : State := ⟨true, false, 0, 0, false, fun _ => .start⟩

/-- thread `t` makes its next step -/
def step (n : Nat) (s : State) (t : Nat) : State :=
  match s.pc t with
  | .start => if s.callback then { s with pc := upd s.pc t .checked } else { s with pc := upd s.pc t (.query false) }
  | .checked =>
    if s.flag then { s with pc := upd s.pc t (.query true) }
    else { s with flag := true, pc := upd s.pc t .owns }
  | .owns =>
    if s.callback then { s with invoked := s.invoked + 1, pc := upd s.pc t (.running 0) } else { s with ub := true }
  | .running i =>
    if i < n then { s with defined := s.defined + 1, pc := upd s.pc t (.running (i + 1)) }
    else { s with pc := upd s.pc t .leaving }
  | .leaving => { s with callback := false, pc := upd s.pc t .unlocking }
  | .unlocking => { s with flag := false, pc := upd s.pc t (.query false) }
  | .query f => { s with pc := upd s.pc t (.done f s.defined) }
  | .done _ _ => s

/-- any interleaving -/
def run (n : Nat) (s : State) : List Nat → State
  | [] => s
  | t :: ts => if s.ub then s else run n (step n s t) ts

/-- two threads are about to access `m_deferredDefine`, one of them writing -/
def Racing (s : State) : Prop :=
  ∃ t t', t ≠ t' ∧ s.pc t = .leaving ∧ (s.pc t' = .start ∨ s.pc t' = .owns)

end Rtti.LazyRace
