import Verif.Model.Registry
/-
Types registered by several threads: `metaTypeId<T>()` (/repo/include/rtti/metatype.h:489-525) with its function-local static
`holder`, as interleaved steps. A static is initialised by the first thread to get there; the others wait until it is
done (C++11, [stmt.dcl]). Its constructor asks for the id of the decayed type first, i.e. initialises a second static
while the first is being initialised. `CustomTypes::addTypeInfo` holds the registry's lock: one step.
Simplification: no static is destroyed; a waiting thread takes a step that changes nothing.
-/
set_option autoImplicit false
namespace Rtti.TypeRace

/-- where a thread is in `metaTypeId<T>()` -/
inductive Pc
  /-- at the declaration of `holder`, metatype.h:523 -/
  | enter (T : RType)
  /-- in the constructor of `meta_type<T>`, at the static of the decayed type, metatype.h:499-501 -/
  | enterD (T : RType)
  /-- in the constructor for the decayed type, at `registerMetaType`, metatype.h:509 -/
  | regD (T : RType)
  /-- in the constructor of `meta_type<T>`, at `registerMetaType`, metatype.h:509 -/
  | reg (T : RType) (decay : Nat)
  /-- returned, metatype.h:524 -/
  | done (id : Nat)

structure State where
  reg : Reg
  /-- the thread that is initialising the static of a type -/
  busy : RType → Option Nat
  pc : Nat → Pc

/-- `full_decay_t<T>` -/
def decayOf (T : RType) : RType := ⟨.none, T.t.fullDecay⟩

def start (ask : Nat → RType) : State := ⟨Reg.init, fun _ => none, fun t => .enter (ask t)⟩

/-- one step of thread `t`. `nm` is `type_name<T>()`. -/
def step (nm : RType → Str) (s : State) (t : Nat) : State :=
  match s.pc t with
  | .enter T =>
    if Reg.isVoid T then { s with pc := upd s.pc t (.done 0) }
    else match s.reg.holders T with
      | some id => { s with pc := upd s.pc t (.done id) }
      | none =>
        match s.busy T with
        | some _ => s
        | none =>
          { s with busy := upd s.busy T (some t)
                   pc := upd s.pc t (if T = decayOf T then .reg T 0 else .enterD T) }
  | .enterD T =>
    if Reg.isVoid (decayOf T) then { s with pc := upd s.pc t (.reg T 0) }
    else match s.reg.holders (decayOf T) with
      | some id => { s with pc := upd s.pc t (.reg T id) }
      | none =>
        match s.busy (decayOf T) with
        | some _ => s
        | none => { s with busy := upd s.busy (decayOf T) (some t), pc := upd s.pc t (.regD T) }
  | .regD T =>
    let p := s.reg.initHolder nm (decayOf T) 0
    { s with reg := p.1, busy := upd s.busy (decayOf T) none, pc := upd s.pc t (.reg T p.2) }
  | .reg T d =>
    let p := s.reg.initHolder nm T d
    { s with reg := p.1, busy := upd s.busy T none, pc := upd s.pc t (.done p.2) }
  | .done _ => s

def run (nm : RType → Str) (s : State) : List Nat → State
  | [] => s
  | t :: ts => run nm (step nm s t) ts

/-- the thread is initialising the static of `T` -/
def Owns : Pc → RType → Prop
  | .enterD S, T => S = T
  | .regD S, T => S = T ∨ decayOf S = T
  | .reg S _, T => S = T
  | _, _ => False

/-- the types asked for, and their decayed types -/
def Asked (ask : Nat → RType) (T : RType) : Prop := ∃ t, T = ask t ∨ T = decayOf (ask t)

end Rtti.TypeRace
