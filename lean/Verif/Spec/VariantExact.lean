import Verif.Spec.VariantMem
/-
What every program with variants does, told without memory: no objects, blocks, pointers or function tables, only
what each variant contains and how many allocations were tried. Types that cannot be copied, constructors that throw
or change the value, failing allocations, arrays of class objects and swaps of a variant with itself are included.
-/
set_option autoImplicit false
namespace Rtti.VMem

def Out.bind {A B : Type} (x : Out A) (f : A → Out B) : Out B :=
  match x with
  | .ok a => f a
  | .threw => .threw
  | .terminated => .terminated
  | .ub => .ub

/-- an exception leaves a function that promised not to throw -/
def Out.sealed {A : Type} (promise : Bool) : Out A → Out A
  | .threw => if promise then .terminated else .threw
  | r => r

/-- an array of class objects cannot be made: its elements are assigned to before they exist -/
def brokenArray (P : Prog) (t : Nat) : Bool := decide ((P.ty t).place = .array) && !(P.ty t).trivial

/-- the value of a copy of `v` -/
def copied (P : Prog) (t v : Nat) : Out Nat :=
  if !(P.ty t).copyable then .threw
  else if brokenArray P t then .ub
  else match (P.ty t).copy v with
    | none => .threw
    | some v' => .ok v'

/-- the value of an object made by moving from `v` -/
def moved (P : Prog) (t v : Nat) : Out Nat :=
  if (P.ty t).movable then
    if brokenArray P t then .ub
    else match (P.ty t).move v with
      | none => .threw
      | some (v', _) => .ok v'
  else copied P t v

/-- A new variant gets a value. What does not fit into a variant needs an allocation first; `n` were tried so far. -/
def stored (P : Prog) (t : Nat) (promise : Bool) (v : Out Nat) (n : Nat) : Out Content × Nat :=
  if (P.ty t).place = .small then ((v.sealed promise).bind fun v => .ok (.val t v), n)
  else if P.oom n then (Out.threw.sealed promise, n + 1)
  else ((v.sealed promise).bind fun v => .ok (.val t v), n + 1)

/-- a variant made from an object -/
def fromValue (P : Prog) (t v : Nat) (rvalue : Bool) : Nat → Out Content × Nat :=
  if rvalue then stored P t (P.ty t).nothrowMove (moved P t v) else stored P t (P.ty t).nothrowCopy (copied P t v)

/-- a copy of a variant -/
def copyContent (P : Prog) (c : Content) (n : Nat) : Out Content × Nat :=
  match c with
  | .val t v => stored P t (P.ty t).nothrowCopy (copied P t v) n
  | c => (.ok c, n)

/-- what a variant contains moves into another place: only objects kept inside the variant are really moved -/
def moveContent (P : Prog) (c : Content) : Out Content :=
  match c with
  | .val t v =>
    if (P.ty t).place = .small then ((moved P t v).sealed (P.ty t).nothrowMove).bind fun v => .ok (.val t v)
    else .ok c
  | c => .ok c

/-- two variants exchange what they contain; if neither is empty the first goes through a third place -/
def swapContent (P : Prog) (a b : Content) : Out (Content × Content) :=
  Out.sealed true <|
    if a = .empty then (moveContent P b).bind fun b => .ok (b, .empty)
    else if b = .empty then (moveContent P a).bind fun a => .ok (.empty, a)
    else (moveContent P a).bind fun a => (moveContent P b).bind fun b => (moveContent P a).bind fun a => .ok (b, a)

/-- a variant is swapped with itself -/
def selfSwap (P : Prog) (a : Content) : Out Content :=
  match a with
  | .val t v =>
    if (P.ty t).place = .small then
      if (P.ty t).trivial then (((moved P t v).bind (moved P t)).sealed true).bind fun v => .ok (.val t v)
      else .ub
    else .ok a
  | a => .ok a

/-- what the variants contain and how many allocations were tried -/
structure Abs where
  σ : View
  n : Nat

/-- an action that gives something new for `k` to use; nothing else changes -/
def Abs.act {A : Type} (s : Abs) (f : Nat → Out A × Nat) (k : A → View) : Out Unit × Abs :=
  match f s.n with
  | (.ok a, n) => (.ok (), ⟨k a, n⟩)
  | (.threw, n) => (.threw, ⟨s.σ, n⟩)
  | (.terminated, n) => (.terminated, ⟨s.σ, n⟩)
  | (.ub, n) => (.ub, ⟨s.σ, n⟩)

/-- an action without allocations -/
def still {A : Type} (x : Out A) (n : Nat) : Out A × Nat := (x, n)

/-- `a` is replaced by a new variant: they are swapped, and the new one with the old content is dropped -/
def replace (P : Prog) (a : Content) (f : Nat → Out Content × Nat) (n : Nat) : Out Content × Nat :=
  match f n with
  | (.ok b, n) => ((swapContent P b a).bind fun r => .ok r.2, n)
  | r => r

/-- one command -/
def meant (P : Prog) (c : Cmd) (s : Abs) : Out Unit × Abs :=
  let σ := s.σ
  match c with
  | .empty x => if (σ x).isSome then (.ok (), s) else (.ok (), ⟨upd σ x (some .empty), s.n⟩)
  | .value x t v r =>
    if (σ x).isSome || !storable P t r then (.ok (), s) else s.act (fromValue P t v r) fun a => upd σ x (some a)
  | .ref x t a => if (σ x).isSome then (.ok (), s) else (.ok (), ⟨upd σ x (some (.ref t a)), s.n⟩)
  | .copy x y =>
    match σ x, σ y with
    | none, some b => s.act (copyContent P b) fun a => upd σ x (some a)
    | _, _ => (.ok (), s)
  | .move x y =>
    match σ x, σ y with
    | none, some b => s.act (still (swapContent P .empty b)) fun r => upd (upd σ x (some r.1)) y (some r.2)
    | _, _ => (.ok (), s)
  | .assign x y =>
    match σ x, σ y with
    | some a, some b =>
      if x = y then (.ok (), s) else s.act (replace P a (copyContent P b)) fun a => upd σ x (some a)
    | _, _ => (.ok (), s)
  | .assignMove x y =>
    match σ x, σ y with
    | some a, some b =>
      if x = y then (.ok (), s)
      else s.act (still ((swapContent P .empty b).bind fun r => (swapContent P r.1 a).bind fun q => .ok (q.2, r.2)))
        fun r => upd (upd σ x (some r.1)) y (some r.2)
    | _, _ => (.ok (), s)
  | .assignValue x t v r =>
    match σ x with
    | some a =>
      if !storable P t r then (.ok (), s) else s.act (replace P a (fromValue P t v r)) fun a => upd σ x (some a)
    | none => (.ok (), s)
  | .assignRef x t b =>
    match σ x with
    | some a => s.act (replace P a (still (.ok (.ref t b)))) fun a => upd σ x (some a)
    | none => (.ok (), s)
  | .swap x y =>
    match σ x, σ y with
    | some a, some b =>
      if x = y then s.act (still (selfSwap P a)) fun a => upd σ x (some a)
      else s.act (still (swapContent P a b)) fun r => upd (upd σ x (some r.1)) y (some r.2)
    | _, _ => (.ok (), s)
  | .clear x => if (σ x).isNone then (.ok (), s) else (.ok (), ⟨upd σ x (some .empty), s.n⟩)
  | .destroy x => (.ok (), ⟨upd σ x none, s.n⟩)

/-- a program -/
def meaning (P : Prog) : List Cmd → Abs → Out Unit × Abs
  | [], s => (.ok (), s)
  | c :: cs, s =>
    match meant P c s with
    | (.ok _, s') => meaning P cs s'
    | (.threw, s') => meaning P cs s'
    | r => r

/-- the type of the object a command makes, if it gets as far as making one -/
def makes (P : Prog) (σ : View) : Cmd → Option Nat
  | .value x t _ r => if (σ x).isNone && storable P t r then some t else none
  | .copy x y =>
    match σ x, σ y with
    | none, some (.val t _) => if (P.ty t).copyable then some t else none
    | _, _ => none
  | .assign x y =>
    match σ x, σ y with
    | some _, some (.val t _) => if decide (x ≠ y) && (P.ty t).copyable then some t else none
    | _, _ => none
  | .assignValue x t _ r => if (σ x).isSome && storable P t r then some t else none
  | _ => none

/-- The two things that must not be done: swapping a variant with itself while it keeps an object inside that is more
    than bytes, and putting an array of such objects into a variant. -/
def Undefined (P : Prog) (c : Cmd) (s : Abs) : Prop :=
  (∃ x t v, c = .swap x x ∧ s.σ x = some (.val t v) ∧ (P.ty t).place = .small ∧ (P.ty t).trivial = false) ∨
  (∃ t, makes P s.σ c = some t ∧ (P.ty t).place = .array ∧ (P.ty t).trivial = false ∧ P.oom s.n = false)

/-! ### Counting constructor and destructor calls -/

/-- constructor calls in a history -/
def made : List Ev → Nat
  | [] => 0
  | .ctor _ _ :: l => made l + 1
  | _ :: l => made l

/-- destructor calls in a history -/
def ended : List Ev → Nat
  | [] => 0
  | .dtor _ _ :: l => ended l + 1
  | _ :: l => ended l

/-- objects in a variant -/
def holds : Content → Nat
  | .val _ _ => 1
  | _ => 0

/-- objects inside a variant itself, not on the heap -/
def inside (P : Prog) : Content → Nat
  | .val t _ => if (P.ty t).place = .small then 1 else 0
  | _ => 0

/-- how many times a swap of `a` and `b` moves an object: `a` twice if both are full -/
def swapMoves (P : Prog) (a b : Content) : Nat :=
  if a = .empty then inside P b
  else if b = .empty then inside P a
  else 2 * inside P a + inside P b

/-- how many times a command moves an object from one variant's buffer to another's -/
def moves (P : Prog) (σ : View) : Cmd → Nat
  | .move x y =>
    match σ x, σ y with
    | none, some b => inside P b
    | _, _ => 0
  | .assign x y =>
    match σ x, σ y with
    | some a, some b => if x = y then 0 else swapMoves P b a
    | _, _ => 0
  | .assignMove x y =>
    match σ x, σ y with
    | some a, some b => if x = y then 0 else inside P b + swapMoves P b a
    | _, _ => 0
  | .assignValue x t v r =>
    match σ x with
    | some a => if storable P t r then swapMoves P (.val t v) a else 0
    | none => 0
  | .assignRef x t b =>
    match σ x with
    | some a => swapMoves P (.ref t b) a
    | none => 0
  | .swap x y =>
    match σ x, σ y with
    | some a, some b => if x = y then 2 * inside P a else swapMoves P a b
    | _, _ => 0
  | _ => 0

/-- how many objects a command makes that were not there before, apart from moving -/
def news (P : Prog) (σ : View) : Cmd → Nat
  | .value x t _ r => if (σ x).isNone && storable P t r then 1 else 0
  | .copy x y =>
    match σ x, σ y with
    | none, some b => holds b
    | _, _ => 0
  | .assign x y =>
    match σ x, σ y with
    | some _, some b => if x = y then 0 else holds b
    | _, _ => 0
  | .assignValue x t _ r => if (σ x).isSome && storable P t r then 1 else 0
  | _ => 0

/-- how many objects a command destroys -/
def ends (P : Prog) (σ : View) : Cmd → Nat
  | .assign x y | .assignMove x y =>
    match σ x, σ y with
    | some a, some _ => if x = y then 0 else holds a
    | _, _ => 0
  | .assignValue x t _ r =>
    match σ x with
    | some a => if storable P t r then holds a else 0
    | none => 0
  | .assignRef x _ _ | .clear x | .destroy x =>
    match σ x with
    | some a => holds a
    | none => 0
  | _ => 0

/-- the variants a command names -/
def Cmd.names : Cmd → List Nat
  | .empty x | .value x _ _ _ | .ref x _ _ | .assignValue x _ _ _ | .assignRef x _ _ | .clear x | .destroy x => [x]
  | .copy x y | .move x y | .assign x y | .assignMove x y | .swap x y => [x, y]

/-- objects in the variants `0 .. N-1` -/
def objects (σ : View) : Nat → Nat
  | 0 => 0
  | N + 1 => objects σ N + ((σ N).map holds).getD 0

/-- how many times a program moves an object from one variant's buffer to another's -/
def movesIn (P : Prog) : List Cmd → Abs → Nat
  | [], _ => 0
  | c :: cs, s =>
    match meant P c s with
    | (.ok _, s') => moves P s.σ c + movesIn P cs s'
    | (.threw, s') => movesIn P cs s'
    | _ => 0

end Rtti.VMem
