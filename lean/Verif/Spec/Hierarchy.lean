import Verif.Model.World
/-
Specification vocabulary for classes: legal histories, declared bases, reachability, paths.
-/
namespace Rtti.Spec
open Rtti

/-- Precondition on `_base<B>()` calls: the declared base is a proper C++ base class, so (inheritance
    having no cycles) there is a `rank` decreasing from derived to base. The library does not check
    it: `metacast_to_base` (/repo/include/rtti/metadefine.h:25-32) uses `static_cast`, which also
    compiles from a class to itself and, without virtual bases, from base to derived; see
    `C25_self_base_diverges`. -/
def Legal (rank : TypeId → Nat) (w : World) : World.Op → Prop
  | .addBase this t _ => rank t < rank (w.cls this).typeId
  | _ => True

/-- A method or property `n` is created in `o` whether or not one is found there or in a base class. The look-up that precedes the
    creation runs deferred definitions (/repo/src/metacontainer.cpp:153-170), and these may define what the look-up has passed
    already. (`C85_reachable`: nothing else can happen in programs with deferred definitions.) -/
def missed (w : World) (o : Ptr) (k : Cat) (n : Str) : World := (w.getOrCreate o k n 0 (fun _ => .val none) (fun w _ => w)).1

/-- worlds reachable by API calls (an exception leaves the world as it was when it was thrown) -/
inductive Reachable (rank : TypeId → Nat) : World → Prop
  | init : Reachable rank World.init
  | step {w : World} (op : World.Op) : Reachable rank w → Legal rank w op →
      (w.step op).2 ≠ .ub → (w.step op).2 ≠ .diverge → Reachable rank (w.step op).1
  | missed {w : World} (o : Ptr) (k : Cat) (n : Str) : Reachable rank w → w.isContainer o = true → k = .method ∨ k = .property →
      Reachable rank (missed w o k n)

/-- `b` was declared as a base class of `d`: `b` is one of the classes enumerated by `baseClass` -/
def DeclaredBase (w : World) (d b : Ptr) : Prop :=
  ∃ i, i < w.baseClassCount d ∧ w.baseClass d i = some b

/-- reflexive-transitive closure of `DeclaredBase` -/
inductive Reaches (w : World) : Ptr → Ptr → Prop
  | refl (c : Ptr) : Reaches w c c
  | step {d m b : Ptr} : DeclaredBase w d m → Reaches w m b → Reaches w d b

/-- `Path w d b fs`: a chain of declared bases from `d` to `b`; `fs` are the cast functions along it,
    first applied first. -/
inductive Path (w : World) : Ptr → Ptr → List Caster → Prop
  | refl (c : Ptr) : Path w c c []
  | step {d m b : Ptr} {t : TypeId} {f : Caster} {fs : List Caster} :
      (t, f) ∈ (w.cls d).bases → w.find t = some m → Path w m b fs → Path w d b (f :: fs)

/-- the leftmost path: at each step the earliest declared base that leads to the target -/
inductive LeftPath (w : World) : Ptr → Ptr → List Caster → Prop
  | refl (c : Ptr) : LeftPath w c c []
  | step {d m b : Ptr} {t : TypeId} {f : Caster} {fs : List Caster}
      {pre post : List (TypeId × Caster)} :
      d ≠ b → (w.cls d).bases = pre ++ (t, f) :: post → w.find t = some m →
      (∀ x ∈ pre, ∀ q, w.find x.1 = some q → ¬ Reaches w q b) →
      LeftPath w m b fs → LeftPath w d b (f :: fs)

/-- apply the cast functions of a path -/
def applyCasts (fs : List Caster) (a : Addr) : Addr := fs.foldl (fun a f => f a) a

/-- Depth-first look-up: `Own c m` says class `c` itself has the member `m`. -/
inductive Finds (w : World) (Own : Ptr → Ptr → Prop) : Ptr → Ptr → Prop
  | own {c m : Ptr} : Own c m → Finds w Own c m
  | base {c q m : Ptr} {t : TypeId} {f : Caster} {pre post : List (TypeId × Caster)} :
      (∀ m', ¬ Own c m') → (w.cls c).bases = pre ++ (t, f) :: post → w.find t = some q →
      (∀ x ∈ pre, ∀ q', w.find x.1 = some q' → ∀ a m', Reaches w q' a → ¬ Own a m') →
      Finds w Own q m → Finds w Own c m

/-- `m` is the class's own method for the query -/
def OwnMethod (w : World) (query : Str) (c m : Ptr) : Prop :=
  ∃ it : Item, it.ptr = m ∧
    ∃ pre post, (w.cont c .method).items = pre ++ it :: post ∧
      (it.name = query ∨ ∃ rest, it.name = query ++ '(' :: rest ∧ '(' ∉ query) ∧
      ∀ y ∈ pre, ¬ (y.name = query ∨ ∃ rest, y.name = query ++ '(' :: rest ∧ '(' ∉ query)

/-- `m` is the class's own property of that name -/
def OwnProperty (w : World) (name : Str) (c m : Ptr) : Prop :=
  ∃ it ∈ (w.cont c .property).items, it.name = name ∧ it.ptr = m

end Rtti.Spec
