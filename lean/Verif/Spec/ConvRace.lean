import Verif.Model.ConvRace
/-
A converter table used by one thread at a time: what the calls answer when made one after the other.
-/
set_option autoImplicit false
namespace Rtti.Spec
open Rtti ConvRace

/-- a call with its answer, and for a registration the function that is meant -/
inductive Seq : (Nat → Option Nat) → List Ev → Prop
  | nil (m : Nat → Option Nat) : Seq m []
  | registered {m : Nat → Option Nat} {i k f v w : Nat} {es : List Ev} : m k = none →
      Seq (fun k' => if k' = k then some w else m k') es → Seq m (⟨i, .register k f v, .flag true, some w⟩ :: es)
  | refused {m : Nat → Option Nat} {i k f v w : Nat} {es : List Ev} : m k ≠ none →
      Seq m es → Seq m (⟨i, .register k f v, .flag false, some w⟩ :: es)
  | unregistered {m : Nat → Option Nat} {i k : Nat} {es : List Ev} :
      Seq (fun k' => if k' = k then none else m k') es → Seq m (⟨i, .unregister k, .none, none⟩ :: es)
  | has {m : Nat → Option Nat} {i k : Nat} {es : List Ev} : Seq m es → Seq m (⟨i, .has k, .flag (m k).isSome, none⟩ :: es)
  | converted {m : Nat → Option Nat} {i k : Nat} {es : List Ev} : Seq m es → Seq m (⟨i, .convert k, .ran (m k), m k⟩ :: es)

/-- a registration of `k` that was told it succeeded -/
def Won (k : Nat) (e : Ev) : Bool := match e.req, e.ans with | .register k' _ _, .flag true => k' == k | _, _ => false

end Rtti.Spec
