import Verif.Spec.Hierarchy
/-
Classes declared as bases of one another in any way, also in circles (C86).
-/
set_option autoImplicit false
namespace Rtti.Spec

/-- the world after any calls, without the condition `Legal` on the base classes declared -/
def afterCalls (ops : List World.Op) : World := ops.foldl (fun w op => (w.step op).1) World.init

/-- `c` can be met from `d` along declared bases without going on behind a class where the search stops -/
inductive Walks (w : World) (stop : Ptr → Prop) : Ptr → Ptr → Prop
  | refl (c : Ptr) : Walks w stop c c
  | step {d m c : Ptr} : ¬stop d → DeclaredBase w d m → Walks w stop m c → Walks w stop d c

/-- a search from `d` can come to a class a second time -/
def CircleAhead (w : World) (stop : Ptr → Prop) (d : Ptr) : Prop :=
  ∃ c m, Walks w stop d c ∧ ¬stop c ∧ DeclaredBase w c m ∧ Walks w stop m c

/-- A search from `d` that visits the bases in the order of their declarations stops at `c`, and nothing it looks through before
    leads into a circle. -/
inductive ComesTo (w : World) (stop : Ptr → Prop) : Ptr → Ptr → Prop
  | here {c : Ptr} : stop c → ComesTo w stop c c
  | base {d q c : Ptr} {t : TypeId} {f : Caster} {pre post : List (TypeId × Caster)} :
      ¬stop d → (w.cls d).bases = pre ++ (t, f) :: post → w.find t = some q →
      (∀ x ∈ pre, ∀ q', w.find x.1 = some q' → (∀ a, Reaches w q' a → ¬stop a) ∧ ¬CircleAhead w stop q') →
      ComesTo w stop q c → ComesTo w stop d c

/-- the class has a method that the query finds -/
def HasMethod (w : World) (query : Str) (c : Ptr) : Prop := ∃ m, OwnMethod w query c m

/-- the class has a property of that name -/
def HasProperty (w : World) (name : Str) (c : Ptr) : Prop := ∃ m, OwnProperty w name c m

end Rtti.Spec
