import Verif.Model.VariantMem
/-
What variants should do, without memory: a variant is empty, a value, or a reference to an object of the program.
And what a proper history of allocations and object lives is.
-/
set_option autoImplicit false
namespace Rtti.VMem

/-- what a variant is to its user -/
inductive Content
  | empty
  | val (t v : Nat)
  | ref (t a : Nat)
deriving DecidableEq, Repr

/-- what can be read from a variant: through the pointer given by `f_access` (variant_impl.h:71-74, 130-136, 198-201) -/
def content (m : Mem) (x : Var) : Option Content :=
  match x.mgr, x.cell with
  | .void, _ => some .empty
  | .ref t, .ext a => some (.ref t a)
  | .own t, .obj id => (m.objs id).map fun o => .val t o.val
  | .own t, .block b =>
    match m.blocks b with
    | some (some id) => (m.objs id).map fun o => .val t o.val
    | _ => none
  | _, _ => none

/-- the variants of the program, as their user sees them -/
def view (s : State) (x : Nat) : Option Content := (s.env (some x)).bind (content s.mem)

abbrev View := Nat → Option Content

/-- a type whose objects can be stored by a call with an rvalue / an lvalue -/
def storable (P : Prog) (t : Nat) (rvalue : Bool) : Bool := (P.ty t).copyable || (rvalue && (P.ty t).movable)

/-- the intended effect of a command -/
def intended (P : Prog) (c : Cmd) (σ : View) : View :=
  match c with
  | .empty x => if (σ x).isSome then σ else upd σ x (some .empty)
  | .value x t v r => if (σ x).isSome || !storable P t r then σ else upd σ x (some (.val t v))
  | .ref x t a => if (σ x).isSome then σ else upd σ x (some (.ref t a))
  | .copy x y => if (σ x).isSome || (σ y).isNone then σ else upd σ x (σ y)
  | .move x y => if (σ x).isSome || (σ y).isNone then σ else upd (upd σ x (σ y)) y (some .empty)
  | .assign x y => if (σ x).isNone || (σ y).isNone then σ else upd σ x (σ y)
  | .assignMove x y => if (σ x).isNone || (σ y).isNone || decide (x = y) then σ else upd (upd σ x (σ y)) y (some .empty)
  | .assignValue x t v r => if (σ x).isNone || !storable P t r then σ else upd σ x (some (.val t v))
  | .assignRef x t a => if (σ x).isNone then σ else upd σ x (some (.ref t a))
  | .swap x y => if (σ x).isNone || (σ y).isNone then σ else upd (upd σ x (σ y)) y (σ x)
  | .clear x => if (σ x).isNone then σ else upd σ x (some .empty)
  | .destroy x => upd σ x none

/-- copying and moving give the same value. What remains in a moved-from object is arbitrary. -/
def Faithful (P : Prog) : Prop :=
  ∀ t v, (∀ v', (P.ty t).copy v = some v' → v' = v) ∧ (∀ v' r, (P.ty t).move v = some (v', r) → v' = v)

/-- arrays have trivial elements -/
def PlainArrays (P : Prog) : Prop := ∀ t, (P.ty t).place = .array → (P.ty t).trivial = true

/-- no command of the program throws, terminates or is undefined -/
def Quiet (P : Prog) : List Cmd → State → Prop
  | [], _ => True
  | c :: cs, s => (exec P c s).1 = .ok () ∧ Quiet P cs (exec P c s).2

/-- no move used by `swap` throws and no allocation fails -/
def Calm (P : Prog) : Prop :=
  (∀ t v, (P.ty t).place = .small →
    if (P.ty t).movable then ((P.ty t).move v).isSome else (P.ty t).copyable = true ∧ ((P.ty t).copy v).isSome) ∧
  (∀ t v, (P.ty t).nothrowCopy = true → (P.ty t).copyable = true ∧ ((P.ty t).copy v).isSome) ∧
  (∀ t v, (P.ty t).nothrowMove = true → (P.ty t).movable = true ∧ ((P.ty t).move v).isSome) ∧
  ∀ n, P.oom n = false

/-- not a swap of a variant with itself -/
def Cmd.plain : Cmd → Bool
  | .swap x y => decide (x ≠ y)
  | _ => true

/-- a proper history, newest event first: every block is freed at most once and after it was allocated, every object
    destroyed at most once, after it was constructed and as what it was constructed -/
def Proper : List Ev → Prop
  | [] => True
  | .alloc b :: l => .alloc b ∉ l ∧ Proper l
  | .free b :: l => .alloc b ∈ l ∧ .free b ∉ l ∧ Proper l
  | .ctor id _ :: l => (∀ t, .ctor id t ∉ l) ∧ Proper l
  | .dtor id t :: l => .ctor id t ∈ l ∧ .dtor id t ∉ l ∧ Proper l

/-- the blocks in use -/
def InUse (l : List Ev) (b : Nat) : Prop := .alloc b ∈ l ∧ .free b ∉ l

/-- the objects alive -/
def Alive (l : List Ev) (id t : Nat) : Prop := .ctor id t ∈ l ∧ .dtor id t ∉ l

/-- the variant `x` keeps its object in block `b` -/
def Keeps (s : State) (x b : Nat) : Prop := ∃ t, s.env (some x) = some ⟨.own t, .block b⟩

end Rtti.VMem
