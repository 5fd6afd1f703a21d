import Verif.Model.VariantMem
/-
The temporary objects of a call: `variant::to<T>()`, /repo/include/rtti/variant.h:256-282, with `metafunc_to::invoke`, 509-538,
and `internal::move_or_copy`, /repo/include/rtti/metatype.h:419-433; `argument::value`, /repo/include/rtti/detail/argument_impl.h:12-113, with
`m_dummy`, variant.h:632-674; the calls of `invoke_imp`, /repo/include/rtti/metadefine.h:150-219, 291-435.

Memory is that of `Model/VariantMem.lean`. Which parameters need a temporary, and whether it is copied or converted, is
decided by `Arg.get` of `Model/Invoke.lean`; here this is given. The user's function reads the temporaries its parameters are bound to, and may throw.
-/
set_option autoImplicit false
namespace Rtti.CallMem
open VMem

/-- what `metafunc_to<T>::invoke` does with the buffer, variant.h:513-538 -/
inductive Src
  /-- `copy_construct` from an object with this value -/
  | copy (v : Nat)
  /-- a converter constructs an object with this value and returns `accepts` -/
  | made (v : Nat) (accepts : Bool)
  /-- nothing is constructed and an exception is thrown -/
  | fails
deriving DecidableEq, Repr

/-- how a parameter gets its value, argument_impl.h:12-113 -/
inductive Param
  /-- bound to an object that exists -/
  | direct
  /-- a reference to what `to<T>()` made, kept in `m_dummy` -/
  | dummy (t : Nat) (src : Src)
  /-- by value -/
  | value (t : Nat) (src : Src)
deriving DecidableEq, Repr

/-- `metafunc_to<T>::invoke(*this, typeId, &buffer)`: when the converter returns false, `bad_variant_convert` is thrown -/
def fill (P : Prog) (t : Nat) : Src → M Nat
  | .copy v => noexcept (P.ty t).nothrowCopy (copyVal P t v)
  | .made v accepts => do let id ← born t v; if accepts then pure id else M.threw
  | .fails => M.threw

/-- a `FINALLY` block, /repo/include/rtti/finally.h, or the end of a parameter's life: also after an exception -/
def finallyM {A : Type} (f : M A) (g : M Unit) : M A := fun m =>
  match f m with
  | (.ok a, m') =>
    match g m' with
    | (.ok _, m'') => (.ok a, m'')
    | (_, m'') => (.ub, m'')
  | (.threw, m') =>
    match g m' with
    | (.ok _, m'') => (.threw, m'')
    | (_, m'') => (.ub, m'')
  | r => r

/-- `to<T>()`: the object returned -/
def to (P : Prog) (t : Nat) (src : Src) : M Nat := do
  let buffer ← fill P t src
  finallyM (noexcept (P.ty t).nothrowMove (moveObj P t buffer)) (destroyObj t buffer)

def finally' {A : Type} (f : State → Out A × State) (g : Step) : State → Out A × State := fun s =>
  match f s with
  | (.ok a, s') =>
    match g s' with
    | (.ok _, s'') => (.ok a, s'')
    | (_, s'') => (.ub, s'')
  | (.threw, s') =>
    match g s' with
    | (.ok _, s'') => (.threw, s'')
    | (_, s'') => (.ub, s'')
  | r => r

def bindM {A B : Type} (f : M A) (k : A → State → Out B × State) : State → Out B × State := fun s =>
  match f s.mem with
  | (.ok a, m) => k a { s with mem := m }
  | (.threw, m) => (.threw, { s with mem := m })
  | (.terminated, m) => (.terminated, { s with mem := m })
  | (.ub, m) => (.ub, { s with mem := m })

/-- the end of an object -/
def drop (t id : Nat) : Step := lift (destroyObj t id) fun _ s => s

/-- `m_dummy = value->to<Decay>();`, argument_impl.h:33, 57: the variant `x` is `m_dummy`, the temporary `r` what `to` returned;
    `operator=(T&&)`, variant_impl.h:450-456. What remains in `r` when it was moved from is not kept: it is destroyed. -/
def store (P : Prog) (t x r : Nat) : Step := fun s =>
  match s.mem.objs r with
  | none => (.ub, s)
  | some o => finally' (viaTemp P (newValue P none t o.val true) x) (drop t r) s

/-- the object of `m_dummy`: `m_dummy.raw_data_ptr()`, argument_impl.h:34, 58 -/
def inDummy (P : Prog) (t x : Nat) (s : State) : Out Nat :=
  match s.env (some x) with
  | some ⟨.own _, c⟩ => (locate (P.ty t).place c s.mem).1
  | _ => .ub

/-- the user's function reads the objects its parameters are bound to -/
def readAll (m : Mem) : List (Nat × Nat) → Option (List Nat)
  | [] => some []
  | (t, id) :: l =>
    match m.objs id with
    | some o => if o.type = t then (readAll m l).map (o.val :: ·) else none
    | none => none

/-- `func(args[I]->value<argument_get_t<I>>()...)`; `i`: the `m_dummy` of the next argument; `acc`: types and objects of the parameters made
    so far. Parameters by value live until the function returns, and are destroyed if a later one throws. Whether the function throws may
    depend on what it reads. -/
def body (P : Prog) (throws : List Nat → Bool) : (i : Nat) → (acc : List (Nat × Nat)) → List Param → Step
  | _, acc, [] => fun s =>
    match readAll s.mem acc with
    | none => (.ub, s)
    | some vs => (if throws vs then .threw else .ok (), s)
  | i, acc, .direct :: ps => body P throws (i + 1) acc ps
  | i, acc, .value t src :: ps => bindM (to P t src) fun id => finally' (body P throws (i + 1) (acc ++ [(t, id)]) ps) (drop t id)
  | i, acc, .dummy t src :: ps => bindM (to P t src) fun r => seq (store P t i r) fun s =>
    match inDummy P t i s with
    | .ok id => body P throws (i + 1) (acc ++ [(t, id)]) ps s
    | _ => (.ub, s)

/-- the `m_dummy` of the arguments -/
def newAll : (i n : Nat) → State → State
  | _, 0, s => s
  | i, n + 1, s => newAll (i + 1) n (put (some i) (some fresh) s)

/-- `~argument` of all arguments -/
def destroyAll (P : Prog) : (i n : Nat) → Step
  | _, 0 => fun s => (.ok (), s)
  | i, n + 1 => seq (destroyAll P (i + 1) n) (doDestroy P (some i))

/-- a call; the arguments' variants are `x`, `x + 1`, ... -/
def call (P : Prog) (throws : List Nat → Bool) (x : Nat) (ps : List Param) : Step := fun s =>
  finally' (body P throws x [] ps) (destroyAll P x ps.length) (newAll x ps.length s)

/-- a call of a function that returns a reference, `return std::ref(func(args[I]->value<argument_get_t<I>>()...))`, metadefine.h:206-212, 384-435:
    which object the reference is to. `f` says, by what the function reads, whether it throws (`none`) or to which of the parameters with objects of their
    own the reference is; a number that is none of theirs stands for another object (one bound directly, or one that has nothing to do with the call). -/
def bodyRef (P : Prog) (f : List Nat → Option Nat) : (i : Nat) → (acc : List (Nat × Nat)) → List Param → State → Out (Option Nat) × State
  | _, acc, [] => fun s =>
    match readAll s.mem acc with
    | none => (.ub, s)
    | some vs =>
      match f vs with
      | none => (.threw, s)
      | some k => (.ok ((acc[k]?).map Prod.snd), s)
  | i, acc, .direct :: ps => bodyRef P f (i + 1) acc ps
  | i, acc, .value t src :: ps => bindM (to P t src) fun id => finally' (bodyRef P f (i + 1) (acc ++ [(t, id)]) ps) (drop t id)
  | i, acc, .dummy t src :: ps => bindM (to P t src) fun r s =>
    match store P t i r s with
    | (.ok _, s') =>
      match inDummy P t i s' with
      | .ok id => bodyRef P f (i + 1) (acc ++ [(t, id)]) ps s'
      | _ => (.ub, s')
    | (.threw, s') => (.threw, s')
    | (.terminated, s') => (.terminated, s')
    | (.ub, s') => (.ub, s')

def callRef (P : Prog) (f : List Nat → Option Nat) (x : Nat) (ps : List Param) : State → Out (Option Nat) × State := fun s =>
  finally' (bodyRef P f x [] ps) (destroyAll P x ps.length) (newAll x ps.length s)

end Rtti.CallMem
