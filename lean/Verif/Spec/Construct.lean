import Verif.Model.Construct
/-
What C57 says: who holds which block, and the life of an object.
-/
set_option autoImplicit false
namespace Rtti.Mk
open VMem (Out)

/-- nothing exists -/
def Mem.init : Mem := ⟨fun _ => none, 0, 0, 0, 0, []⟩

/-- the object with that number is in that slot -/
def At (m : Mem) (id b i : Nat) : Prop := ∃ k v, m.blocks b = some k ∧ k.slots[i]? = some (.obj id v)

/-- the object with that number is alive -/
def Alive (m : Mem) (id : Nat) : Prop := ∃ b i, At m id b i

/-- a block of the heap -/
def OnHeap (m : Mem) (b : Nat) : Prop := ∃ k, m.blocks b = some k ∧ k.heap = true

/-- facts of C++ about type traits -/
structure Prog.WF (P : Prog) : Prop where
  /-- is_trivially_default_constructible implies is_trivially_destructible -/
  triv : ∀ t, (P.ty t).trivDflt = true → (P.ty t).trivDtor = true
  /-- only arrays have several elements -/
  one : ∀ t, (P.ty t).array = false → (P.ty t).count = 1
  /-- is_nothrow_..._constructible implies is_..._constructible -/
  able : ∀ kind t, (P.ty t).nothrow kind = true → (P.ty t).able kind = true

/-- a constructor declared `noexcept` does not throw -/
def Prog.Honest (P : Prog) : Prop := ∀ kind t n, (P.ty t).nothrow kind = true → P.throws kind t n = false

/-- an object of type `t`, every element initialised -/
def Complete (P : Prog) (m : Mem) (t b : Nat) : Prop :=
  ∃ k, m.blocks b = some k ∧ k.ty = t ∧ k.slots.length = (P.ty t).count ∧ ∀ i, i < k.slots.length → ∃ id v, k.slots[i]? = some (.obj id v)

/-- what `construct` may be given: null, or the address of an object of the type -/
def LegalSource (P : Prog) (m : Mem) (t : Nat) : Option Nat → Prop
  | none => True
  | some src => Complete P m t src

/-- the program constructs the elements of an object of its own -/
def ownLoop (t b : Nat) : Nat → List Nat → Mem → Mem
  | _, [], m => m
  | i, v :: vs, m =>
    ownLoop t b (i + 1) vs
      (putSlot b i (.obj m.nextObj v) { m with nextObj := m.nextObj + 1, log := .ctor m.nextObj t :: m.log })

/-- the program makes an object of its own (automatic, static, ...), say as a source of copies -/
def own (t : Nat) (vals : List Nat) (m : Mem) : Mem :=
  ownLoop t m.nextBlock 0 vals
    { m with blocks := upd m.blocks m.nextBlock (some ⟨t, false, List.replicate vals.length .raw⟩), nextBlock := m.nextBlock + 1 }

/-- A history of calls: the memory, the pointers the program got and has not given back, and the blocks allocated by
    calls that ended with an exception. A pointer is given back once, with its type. -/
inductive Hist (P : Prog) : Mem → List Nat → List Nat → Prop
  | start : Hist P Mem.init [] []
  | own {m h l} (t : Nat) {vals : List Nat} : vals.length = (P.ty t).count → Hist P m h l → Hist P (own t vals m) h l
  | made {m h l m' b} {t : Nat} {src : Option Nat} {mv : Bool} : Hist P m h l → LegalSource P m t src →
      construct P (.type t) src mv m = (.ok (some b), m') → Hist P m' (b :: h) l
  | failed {m h l m'} {t : Nat} {src : Option Nat} {mv : Bool} : Hist P m h l → LegalSource P m t src →
      construct P (.type t) src mv m = (.threw, m') →
      Hist P m' h (if m'.nextBlock = m.nextBlock then l else m.nextBlock :: l)
  | invalid {m h l m'} {src : Option Nat} {mv : Bool} : Hist P m h l →
      construct P .invalid src mv m = (.ok none, m') → Hist P m' h l
  | gone {m h l m' b k} : Hist P m h l → b ∈ h → m.blocks b = some k →
      destruct P (.type k.ty) (some b) m = (.ok (), m') → Hist P m' (h.erase b) l
  | nothing {m h l m'} {mt : MT} : Hist P m h l → destruct P mt none m = (.ok (), m') → Hist P m' h l

/-- new objects with the values, numbered from `n` -/
def newSlots (n : Nat) : List Nat → List Slot
  | [] => []
  | v :: vs => .obj n v :: newSlots (n + 1) vs

/-- the elements of an object have these values -/
def Values (m : Mem) (b : Nat) (vals : List Nat) : Prop :=
  ∃ k, m.blocks b = some k ∧ k.slots.length = vals.length ∧ ∀ (i v : Nat), vals[i]? = some v → ∃ id, k.slots[i]? = some (Slot.obj id v)

/-- does the call move? -/
def moves (P : Prog) (t : Nat) (movable : Bool) : Bool := movable && (P.ty t).able .move

/-- the values of the new object: default, copied or moved from the values of the source -/
def newVals (P : Prog) (t : Nat) (movable : Bool) : Option (List Nat) → List Nat
  | none => List.replicate (P.ty t).count (P.ty t).dfltVal
  | some vals =>
    if (P.ty t).array then vals
    else vals.map fun v => if moves P t movable then ((P.ty t).moveVal v).1 else (P.ty t).copyVal v

/-- what remains in the source -/
def remains (P : Prog) (t : Nat) (movable : Bool) (vals : List Nat) : List Nat :=
  if (P.ty t).array then vals
  else vals.map fun v => if moves P t movable then ((P.ty t).moveVal v).2 else v

/-- the same objects in both, perhaps with other values -/
def SameObjects (k k' : Block) : Prop :=
  k'.ty = k.ty ∧ k'.heap = k.heap ∧ k'.slots.length = k.slots.length ∧
    ∀ i id : Nat, (∃ v, k'.slots[i]? = some (Slot.obj id v)) ↔ ∃ v, k.slots[i]? = some (Slot.obj id v)

/-- the source and its values, if any -/
def SourceVals (m : Mem) : Option Nat → Option (List Nat) → Prop
  | none, none => True
  | some s, some vals => Values m s vals
  | _, _ => False

/-- what a successful `construct` has done: there is one more block, with new objects of the right values (raw memory
    if a trivial type is default constructed); the source keeps its objects, with what remains; nothing else changed -/
structure Made (P : Prog) (t : Nat) (movable : Bool) (src : Option Nat) (vals : Option (List Nat)) (m m' : Mem) : Prop where
  fresh : m.blocks m.nextBlock = none
  block : m'.blocks m.nextBlock = some ⟨t, true,
    if src = none ∧ (P.ty t).trivDflt = true then List.replicate (P.ty t).count .raw
    else newSlots m.nextObj (newVals P t movable vals)⟩
  source : ∀ s vs, src = some s → vals = some vs →
    ∃ ks ks', m.blocks s = some ks ∧ m'.blocks s = some ks' ∧ SameObjects ks ks' ∧ Values m' s (remains P t movable vs)
  others : ∀ b, b ≠ m.nextBlock → src ≠ some b → m'.blocks b = m.blocks b
  next : m'.nextBlock = m.nextBlock + 1

end Rtti.Mk
