import Verif.Model.Registry
import Verif.Spec.CType
/-
What the answers of a program that uses the type and converter registries should be, as a function of
the calls made before.
-/
set_option autoImplicit false
namespace Rtti.Spec

/-- calls that only concern the type registry -/
def TypeCall : RegOp → Prop
  | .reg .. | .lookup _ | .observe _ => True
  | _ => False

/-- description and decay id of the first registration of a name -/
def firstReg (h : List RegOp) (n : Str) : Option (Desc × TypeId) :=
  h.findSome? fun
    | .reg m d c => if m = n then some (d, c) else none
    | _ => none

/-- the answer to a call after the calls `h`, when `f` assigns ids to names -/
def TypeAnswer (f : Str → TypeId) (h : List RegOp) : RegOp → RegOut → Prop
  | .reg n _ _, o => o = .id (if n = [] then 0 else f n)
  | .lookup n, o => o = .id (if n ≠ [] ∧ (firstReg h n).isSome then f n else 0)
  | .observe id, o => ∀ n d c, n ≠ [] → firstReg h n = some (d, c) → id = f n →
      o = .obs ⟨true, n, d, if c = 0 then id else c⟩
  | _, _ => True

/-- calls made through the templates, for types the compiler knows -/
def TypedCall : RegOp → Prop
  | .idOf _ | .hasT .. | .convertT .. | .regT .. | .unregT .. | .lookup _ => True
  | _ => False

/-- `void`, with any qualifiers -/
def IsVoid (t : CType) : Prop := ∃ b q, t = .base b q ∧ b.kind = .void

def SamePair (S T S' T' : RType) : Prop := SameDecay S.t S'.t ∧ SameDecay T.t T'.t

open Classical in
/-- functor type and function of the registration in force for a pair of types -/
noncomputable def present (h : List RegOp) (S T : RType) : Option (Nat × Nat) :=
  h.foldl (fun cur op =>
    match op with
    | .regT S' T' functor fn =>
      if SamePair S T S' T' ∧ cur = none ∧ ¬ IsVoid S.t ∧ ¬ IsVoid T.t then some (functor, fn) else cur
    | .unregT S' T' => if SamePair S T S' T' then none else cur
    | _ => cur) none

open Classical in
/-- the function of the first call (successful or not) for this pair with this functor type -/
noncomputable def firstFn (h : List RegOp) (S T : RType) (functor : Nat) : Option Nat :=
  h.findSome? fun
    | .regT S' T' f fn => if SamePair S T S' T' ∧ f = functor then some fn else none
    | _ => none

/-- the answer to a converter call after the calls `h` -/
noncomputable def ConvAnswer (h : List RegOp) : RegOp → RegOut → Prop
  | .hasT S T, o => o = .bool (present h S T).isSome
  | .regT S T _ _, o => ∃ b : Bool, o = .bool b ∧ (b = true ↔ present h S T = none ∧ ¬ IsVoid S.t ∧ ¬ IsVoid T.t)
  | .convertT S T, o => o = .ran ((present h S T).bind fun p => firstFn h S T p.1)
  | _, _ => True

/-- the answer to a converter call when the calls `h` are in force and the calls `g` have constructed converters -/
noncomputable def ConvAnswer2 (h g : List RegOp) : RegOp → RegOut → Prop
  | .hasT S T, o => o = .bool (present h S T).isSome
  | .regT S T _ _, o => ∃ b : Bool, o = .bool b ∧ (b = true ↔ present h S T = none ∧ ¬ IsVoid S.t ∧ ¬ IsVoid T.t)
  | .convertT S T, o => o = .ran ((present h S T).bind fun p => firstFn g S T p.1)
  | _, _ => True

/-- the ids an answer tells the program -/
def idsOf : RegOut → List TypeId
  | .id n => [n]
  | .obs o => [o.decay]
  | _ => []

/-- the ids known to a program that got these answers -/
def known (outs : List RegOut) : List TypeId := 0 :: outs.flatMap idsOf

/-- A call a well-behaved program may make after the calls `h` with answers `outs`: ids are only those it
    was told; old handles are not used, and converters not registered, once static objects are being
    destroyed. -/
def LegalCall (h : List RegOp) (outs : List RegOut) : RegOp → Prop
  | .reg _ _ c => c ∈ known outs
  | .observe a => a ∈ known outs
  | .observeOld a => a ∈ known outs ∧ .destroy ∉ h
  | .compatible a b | .has a b | .convert a b | .unreg a b => a ∈ known outs ∧ b ∈ known outs
  | .regT .. => .destroy ∉ h
  | _ => True

/-- every call of the program is legal, given the answers that precede it -/
def LegalProgram (ops : List RegOp) (outs : List RegOut) : Prop :=
  ∀ i (hi : i < ops.length), LegalCall (ops.take i) (outs.take i) ops[i]

/-- the answers about nothing -/
def neutral : Reg.Obs := ⟨false, ['v', 'o', 'i', 'd'], ⟨0, 0, 0, Flag.Void⟩, 0⟩

/-- the answer to a call after the registry is gone -/
def AfterShutdown : RegOp → RegOut → Prop
  | .reg .., o | .lookup _, o => o = .id 0
  | .observe _, o => o = .obs neutral
  | .compatible .., o => o = .compat (some false)
  | .has .., o | .hasT .., o | .regT .., o => o = .bool false
  | .convert .., o | .convertT .., o => o = .ran none
  | _, _ => True

end Rtti.Spec
