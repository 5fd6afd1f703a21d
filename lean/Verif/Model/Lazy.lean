import Verif.Model.World
import Verif.Model.NamedList
/-
Lazy definitions, single thread: `MetaContainer::setDeferredDefine`, `checkDeferredDefine`
(/repo/src/metacontainer.cpp:144-170) and every function that calls the latter, on top of the world of
`Model/World.lean`. (Several threads: `Model/LazyRace.lean`.)

A callback is a program of API calls (`Cmd`). The functions below are the ones of `Model/World.lean`
with the calls of `checkDeferredDefine` put in where the code has them. `chk` stands for
`checkDeferredDefine`; it is passed as a parameter because callbacks make API calls themselves.

Simplifications: attributes hold numbers; only the lock of a class's list of bases is modelled (it is held
while the bases are visited, so adding a base to that class from a callback is a deadlock: `diverge`).
-/
set_option autoImplicit false
namespace Rtti

/-- queries; each calls `checkDeferredDefine` on the container (and classes: on base classes they visit) -/
inductive Query
  | item (c : Ptr) (k : Cat) (n : Str)
  | itemAt (c : Ptr) (k : Cat) (i : Nat)
  | count (c : Ptr) (k : Cat)
  | constructor (c : Ptr) (n : Str)
  | method (c : Ptr) (n : Str)
  | property (c : Ptr) (n : Str)
  | attr (c : Ptr) (n : Str)
  | baseCount (c : Ptr)
  | derivedCount (c : Ptr)
  | inherited (c : Ptr) (base : Option Ptr)
  | cast (c : Ptr) (base : Option Ptr) (a : Addr)

/-- what user code and callbacks do -/
inductive Cmd
  | op (o : World.Op)
  | setAttr (p : Ptr) (n : Str) (v : Nat)
  | query (q : Query)
  /-- `_lazy(body)` on the container -/
  | install (p : Ptr) (body : List Cmd)
  /-- the user's code throws -/
  | raise
  /-- `try { body } catch (...) {}` -/
  | attempt (body : List Cmd)

inductive Ans | unit | ptr (p : Option Ptr) | num (n : Nat) | attr (v : Option Nat) | bool (b : Bool)
deriving DecidableEq, Repr

/-- ghost record of what happened to callbacks -/
inductive Event
  | installed (p : Ptr) (body : List Cmd)
  | started (p : Ptr) (body : List Cmd)
  | finished (p : Ptr)

structure LW where
  w : World
  attrs : Ptr → NamedList Nat
  /-- `m_deferredDefine`, /repo/src/private/metacontainer_p.h:77 -/
  pending : Ptr → Option (List Cmd)
  /-- `m_deferredDefine_lock`, /repo/src/private/metacontainer_p.h:76 -/
  running : Ptr → Bool
  /-- classes whose list of bases is locked (innermost first) -/
  iter : List Ptr
  /-- ghost -/
  log : List Event

/-- computations on the state with an outcome; state changes made before an exception stay -/
def LM (A : Type) := LW → LW × Res A

namespace LM
variable {A B : Type}

def pure (a : A) : LM A := fun s => (s, .val a)
def fail (e : Err) : LM A := fun s => (s, .throw e)
def ub : LM A := fun s => (s, .ub)
def diverge : LM A := fun s => (s, .diverge)

def bind (m : LM A) (f : A → LM B) : LM B := fun s =>
  match m s with
  | (s', .val a) => f a s'
  | (s', .throw e) => (s', .throw e)
  | (s', .ub) => (s', .ub)
  | (s', .diverge) => (s', .diverge)

/-- a query of the world -/
def read (f : World → Res A) : LM A := fun s => (s, f s.w)
/-- a change of the world -/
def change (f : World → World × Res A) : LM A := fun s => ({ s with w := (f s.w).1 }, (f s.w).2)

end LM

namespace Lazy
open LM

section
variable (chk : Ptr → LM Unit)

/-- the lock of the list of bases is held while `k` visits it -/
def withBases {A : Type} (this : Ptr) (k : List (TypeId × Caster) → LM A) : LM A := fun s =>
  let r := k (s.w.cls this).bases { s with iter := this :: s.iter }
  ({ r.1 with iter := s.iter }, r.2)

/-- loop of /repo/src/metaclass.cpp:194-205 and 222-233 -/
def firstBase (f : Ptr → LM (Option Ptr)) : List (TypeId × Caster) → LM (Option Ptr)
  | [] => pure none
  | item :: rest =>
    (read fun w => match w.find item.1 with | none => .ub | some q => .val q).bind fun directBase =>
    (f directBase).bind fun r =>
    match r with
    | some p => pure (some p)
    | none => firstBase f rest

/-- `MetaClass::getMethodInternal`, /repo/src/metaclass.cpp:181-207 with
    `MetaContainer::getMethodInternal`, /repo/src/metacontainer.cpp:315-319 -/
def classMethod : Nat → Ptr → Str → LM (Option Ptr)
  | 0, _, _ => diverge
  | fuel + 1, this, name =>
    if name = [] then pure none
    else
      (chk this).bind fun _ => (read fun w => w.ownMethod this name).bind fun r =>
      match r with
      | some p => pure (some p)
      | none => withBases this (firstBase fun p => classMethod fuel p name)

/-- `MetaClass::getPropertyInternal`, /repo/src/metaclass.cpp:209-235 with
    `MetaContainer::getPropertyInternal`, /repo/src/metacontainer.cpp:355-358 -/
def classProperty : Nat → Ptr → Str → LM (Option Ptr)
  | 0, _, _ => diverge
  | fuel + 1, this, name =>
    if name = [] then pure none
    else
      (chk this).bind fun _ => (read fun w => .val (w.ownProperty this name)).bind fun r =>
      match r with
      | some p => pure (some p)
      | none => withBases this (firstBase fun p => classProperty fuel p name)

/-- `MetaContainer::getMethod(name)`, /repo/src/metacontainer.cpp:321-326 -/
def getMethod (fuel : Nat) (c : Ptr) (name : Str) : LM (Option Ptr) :=
  if name = [] then pure none
  else (read fun w => .val (w.kind c)).bind fun k =>
    match k with
    | some .cls => classMethod chk fuel c name
    | some .nmspace => (chk c).bind fun _ => read fun w => w.ownMethod c name
    | _ => ub

/-- `MetaContainer::getProperty(name)`, /repo/src/metacontainer.cpp:360-363 -/
def getProperty (fuel : Nat) (c : Ptr) (name : Str) : LM (Option Ptr) :=
  (read fun w => .val (w.kind c)).bind fun k =>
    match k with
    | some .cls => classProperty chk fuel c name
    | some .nmspace => (chk c).bind fun _ => read fun w => .val (w.ownProperty c name)
    | _ => ub

/-- `MetaContainer::getConstructor(name)`, /repo/src/metacontainer.cpp:279-283 -/
def getConstructor (c : Ptr) (name : Str) : LM (Option Ptr) :=
  (chk c).bind fun _ => read fun w => w.getConstructor c name

/-- `getNamespace`, `getClass`, `getEnum` by name, /repo/src/metacontainer.cpp:210-215 -/
def getItem (c : Ptr) (k : Cat) (name : Str) : LM (Option Ptr) :=
  (chk c).bind fun _ => read fun w => w.getItem c k name

/-- loop of /repo/src/metaclass.cpp:133-143 -/
def anyBase (f : Ptr → LM Bool) : List (TypeId × Caster) → LM Bool
  | [] => pure false
  | item :: rest =>
    (read fun w => match w.find item.1 with | none => .ub | some q => .val q).bind fun directBase =>
    (f directBase).bind fun r => if r then pure true else anyBase f rest

/-- `MetaClass::inheritedFrom`, /repo/src/metaclass.cpp:123-145 -/
def inheritedFrom : Nat → Ptr → Option Ptr → LM Bool
  | 0, _, _ => diverge
  | fuel + 1, this, base =>
    match base with
    | none => pure false
    | some b =>
      if b = this then pure true
      else (chk this).bind fun _ => withBases this (anyBase fun p => inheritedFrom fuel p (some b))

/-- loop of /repo/src/metaclass.cpp:159-171 -/
def castBase (inh : Ptr → LM Bool) (cast : Ptr → Addr → LM Addr) (a : Addr) : List (TypeId × Caster) → LM (Option Addr)
  | [] => pure none
  | item :: rest =>
    (read fun w => match w.find item.1 with | none => .ub | some q => .val q).bind fun directBase =>
    (inh directBase).bind fun r =>
    if r then (cast directBase (item.2 a)).bind fun x => pure (some x) else castBase inh cast a rest

/-- `MetaClass::cast`, /repo/src/metaclass.cpp:147-174 -/
def cast : Nat → Ptr → Option Ptr → Addr → LM Addr
  | 0, _, _, _ => diverge
  | fuel + 1, this, base, a =>
    match base with
    | none => pure 0
    | some b =>
      if b = this then pure a
      else (chk this).bind fun _ =>
        (withBases this (castBase (fun p => inheritedFrom chk fuel p (some b)) (fun p x => cast fuel p (some b) x) a)).bind
          fun r => pure (r.getD 0)

/-- allocate and add; if the addition is refused delete (`none`) -/
def tryCreate (owner : Ptr) (k : Cat) (name : Str) (t : TypeId) (w : World) : World × Res (Option Ptr) :=
  let w1 := w.alloc k name owner t
  let r := w1.addItem owner k ⟨w.next, name⟩
  if r.2 then (r.1, .val (some w.next)) else (r.1.free w.next, .val none)

/-- the same for a class, /repo/src/metaclass.cpp:24-33 -/
def tryCreateClass (owner : Ptr) (name : Str) (t : TypeId) (w : World) : World × Res (Option Ptr) :=
  if !w.valid t then (w, .throw .invalidTypeId)
  else if (w.metaClass t).isSome then (w, .throw .duplicateClass)
  else
    match tryCreate owner .cls name t w with
    | (w1, .val (some p)) => ({ w1 with metaClass := upd w1.metaClass t (some p) }, .val (some p))
    | r => r

/-- the common shape of the create functions, see `World.getOrCreate` -/
def getOrCreate (look : LM (Option Ptr)) (create : World → World × Res (Option Ptr)) : LM (Option Ptr) :=
  look.bind fun r =>
  match r with
  | some p => pure (some p)
  | none =>
    (change create).bind fun r =>
    match r with
    | some p => pure (some p)
    | none => look

/-- API calls that define something, see `World.step`. `addBaseClass` (/repo/src/metaclass.cpp:92-106) does
    not call `checkDeferredDefine`. -/
def op (fuel : Nat) : World.Op → LM (Option Ptr)
  | .registerType t => change fun w => w.step (.registerType t)
  | .createNamespace o n => getOrCreate (getItem chk o .nmspace n) (tryCreate o .nmspace n 0)
  | .createEnum o n => getOrCreate (getItem chk o .enum n) (tryCreate o .enum n 0)
  | .createClass o n t => getOrCreate (getItem chk o .cls n) (tryCreateClass o n t)
  | .createMethod o s i =>
    (read fun w => if w.isContainer o then .val () else .ub).bind fun _ =>
    if !i then pure none else getOrCreate (getMethod chk fuel o s) (tryCreate o .method s 0)
  | .createProperty o n i =>
    (read fun w => if w.isContainer o then .val () else .ub).bind fun _ =>
    if n = [] ∨ !i then pure none else getOrCreate (getProperty chk fuel o n) (tryCreate o .property n 0)
  | .createConstructor o s i =>
    (read fun w => if w.isContainer o then .val () else .ub).bind fun _ =>
    if !i then pure none else getOrCreate (getConstructor chk o s) (tryCreate o .constructor s 0)
  | .addBase this t c => fun s =>
    if this ∈ s.iter then (s, .diverge) else change (fun w => w.step (.addBase this t c)) s

/-- `MetaItem::attribute(name)`, /repo/src/metaitem.cpp:118-123, without the check -/
def attrOf (l : NamedList Nat) (n : Str) : Option Nat :=
  if n = [] then none
  else match l.names n with
    | none => none
    | some i => (l.items[i]?).map Prod.snd

/-- `MetaItem::attribute(name)`, /repo/src/metaitem.cpp:118-123 -/
def getAttr (c : Ptr) (n : Str) : LM Ans :=
  (chk c).bind fun _ => fun s => (s, .val (.attr (attrOf (s.attrs c) n)))

def onlyIf (p : World → Bool) : LM Unit := read fun w => if p w then .val () else .ub

def query (fuel : Nat) : Query → LM Ans
  | .item c k n => (getItem chk c k n).bind fun r => pure (.ptr r)
  | .itemAt c k i =>
    (chk c).bind fun _ => (onlyIf (·.isContainer c)).bind fun _ =>
      read fun w => .val (.ptr (((w.cont c k).getAt i).map (·.ptr)))
  | .count c k => (chk c).bind fun _ => (onlyIf (·.isContainer c)).bind fun _ => read fun w => .val (.num (w.cont c k).size)
  | .constructor c n => (getConstructor chk c n).bind fun r => pure (.ptr r)
  | .method c n => (getMethod chk fuel c n).bind fun r => pure (.ptr r)
  | .property c n => (getProperty chk fuel c n).bind fun r => pure (.ptr r)
  | .attr c n => getAttr chk c n
  | .baseCount c =>
    (chk c).bind fun _ => (onlyIf (·.kind c = some .cls)).bind fun _ => read fun w => .val (.num (w.baseClassCount c))
  | .derivedCount c =>
    (chk c).bind fun _ => (onlyIf (·.kind c = some .cls)).bind fun _ => read fun w => .val (.num (w.derivedClassCount c))
  | .inherited c b => (onlyIf (·.kind c = some .cls)).bind fun _ => (inheritedFrom chk fuel c b).bind fun r => pure (.bool r)
  | .cast c b a => (onlyIf (·.kind c = some .cls)).bind fun _ => (cast chk fuel c b a).bind fun r => pure (.num r)

/-- `setDeferredDefine`, /repo/src/metacontainer.cpp:144-151 -/
def install (p : Ptr) (body : List Cmd) : LM Unit := fun s =>
  if !s.w.isContainer p then (s, .ub)
  else match s.pending p with
    | some _ => (s, .throw .definitionError)
    | none => ({ s with pending := upd s.pending p (some body), log := s.log ++ [.installed p body] }, .val ())

/-- `MetaItem::setAttribute`, /repo/src/metaitem.cpp:139-149: no `checkDeferredDefine` -/
def setAttr (p : Ptr) (n : Str) (v : Nat) : LM Unit := fun s =>
  match (s.attrs p).set n v with
  | some l => ({ s with attrs := upd s.attrs p l }, .val ())
  | none => (s, .throw .outOfRange)

/-- `try { m } catch (...) {}` -/
def catchAll {A : Type} (m : LM A) : LM Unit := fun s =>
  match m s with
  | (s', .val _) => (s', .val ())
  | (s', .throw _) => (s', .val ())
  | (s', .ub) => (s', .ub)
  | (s', .diverge) => (s', .diverge)

mutual
def exec (fuel : Nat) : Cmd → LM Ans
  | .op o => (op chk fuel o).bind fun r => pure (.ptr r)
  | .setAttr p n v => (setAttr p n v).bind fun _ => pure .unit
  | .query q => query chk fuel q
  | .install p body => (install p body).bind fun _ => pure .unit
  | .raise => fail .userError
  | .attempt body => (catchAll (execs fuel body)).bind fun _ => pure .unit
/-- a program; it stops at the first exception -/
def execs (fuel : Nat) : List Cmd → LM (List Ans)
  | [] => pure []
  | c :: cs => (exec fuel c).bind fun a => (execs fuel cs).bind fun as => pure (a :: as)
end

end

/-- forget the value, keep how it ended -/
def outcome {A : Type} : Res A → Res Unit
  | .val _ => .val ()
  | .throw e => .throw e
  | .ub => .ub
  | .diverge => .diverge

/-- `checkDeferredDefine`, /repo/src/metacontainer.cpp:153-170. The scope guard resets both fields however the
    callback ends. -/
def check : Nat → Ptr → LM Unit
  | 0, _ => fun s => (s, .diverge)
  | fuel + 1, p => fun s =>
    match s.pending p with
    | none => (s, .val ())
    | some body =>
      if s.running p then (s, .val ())
      else
        let s1 := { s with running := upd s.running p true, log := s.log ++ [.started p body] }
        let r := execs (check fuel) fuel body s1
        ({ r.1 with pending := upd r.1.pending p none, running := upd r.1.running p false,
                    log := r.1.log ++ [.finished p] },
          outcome r.2)

/-- run a program -/
def run (fuel : Nat) (cs : List Cmd) : LM (List Ans) := execs (check fuel) fuel cs

def init : LW := ⟨World.init, fun _ => NamedList.empty, fun _ => none, fun _ => false, [], []⟩

end Lazy
end Rtti
