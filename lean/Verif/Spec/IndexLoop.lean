import Verif.Model.IndexLoop
/-
What happens during an index loop, read off the sequence of events alone.
-/
set_option autoImplicit false
namespace Rtti.Spec
open IndexLoop

/-- the additions the other threads made -/
def additions : List Ev → List (Option Item)
  | [] => []
  | .add v :: es => v :: additions es
  | .me :: es => additions es

/-- the number of steps the loop was given -/
def turns : List Ev → Nat
  | [] => 0
  | .add _ :: es => turns es
  | .me :: es => turns es + 1

/-- the writes the other threads made -/
def writes {V : Type} : List (AEv V) → List (Str × V)
  | [] => []
  | .set n v :: es => (n, v) :: writes es
  | .me :: es => writes es

def aturns {V : Type} : List (AEv V) → Nat
  | [] => 0
  | .set _ _ :: es => aturns es
  | .me :: es => aturns es + 1

end Rtti.Spec
