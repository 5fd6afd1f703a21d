import Verif.Model.QName
/-
Qualified names, several threads: `MetaItemPrivate::qualifiedName` and `makeQualifiedName`
(/repo/src/metaitem.cpp:47-58) as interleaved steps. Any number of threads ask for qualified names; the world does
not change meanwhile.

Each step is one access to a cache `m_qualifiedName` (/repo/src/private/metaitem_p.h:124, a plain `mutable std::string`).
The steps are the most favourable reading of the code (each access atomic, sequentially consistent); that accesses
race is stated separately (`Racing`).
-/
set_option autoImplicit false
namespace Rtti.QNameRace

/-- where a thread is; `st` lists the items whose names wait for this one, the last is the one asked for -/
inductive Pc
  /-- about to test `m_qualifiedName.empty()` of `p`, /repo/src/metaitem.cpp:55 -/
  | test (p : Ptr) (st : List Ptr)
  /-- about to assign `v` to `m_qualifiedName` of `p`, /repo/src/metaitem.cpp:56 -/
  | put (p : Ptr) (v : Str) (st : List Ptr)
  /-- about to read `m_qualifiedName` of `p` through the returned reference: `makeQualifiedName` of a member, or the
      caller, /repo/src/metaitem.cpp:49-50, 57 -/
  | get (p : Ptr) (st : List Ptr)
  | done (v : Str)
deriving DecidableEq, Repr

structure State where
  cache : Ptr → Str
  pc : Nat → Pc

/-- the next step of thread `t` -/
def step (w : World) (s : State) (t : Nat) : State :=
  match s.pc t with
  | .test p st =>
    if s.cache p = [] then
      match w.owner p with
      | none => { s with pc := upd s.pc t (.put p [] st) }
      | some o => { s with pc := upd s.pc t (.test o (p :: st)) }
    else { s with pc := upd s.pc t (.get p st) }
  | .put p v st => { cache := upd s.cache p v, pc := upd s.pc t (.get p st) }
  | .get p [] => { s with pc := upd s.pc t (.done (s.cache p)) }
  | .get p (c :: st) => { s with pc := upd s.pc t (.put c (s.cache p ++ [':', ':'] ++ w.name c) st) }
  | .done _ => s

def run (w : World) (s : State) : List Nat → State
  | [] => s
  | t :: ts => run w (step w s t) ts

/-- thread `t` asks for the name of `ask t` -/
def start (cache : Ptr → Str) (ask : Nat → Ptr) : State := ⟨cache, fun t => .test (ask t) []⟩

/-- the thread is about to access the cache of `p` -/
def Accesses (p : Ptr) : Pc → Prop
  | .test q _ | .put q _ _ | .get q _ => q = p
  | .done _ => False

/-- two threads are about to access the same cache, one of them writing -/
def Racing (s : State) : Prop :=
  ∃ t t' p v st, t ≠ t' ∧ s.pc t = .put p v st ∧ Accesses p (s.pc t')

end Rtti.QNameRace
