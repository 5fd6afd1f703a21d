import Verif.Model.Basic
/-
Specification of an insertion-ordered map given only by its history of writes,
and of an enumeration with early exit. Nothing here refers to the model.
-/
namespace Rtti.Spec

/-- distinct non-empty names in order of first definition -/
def definedNames {V : Type} (h : List (Str × V)) : List Str :=
  ((h.map (·.1)).filter (fun n => n ≠ [])).eraseDups

/-- the value last written under a name -/
def lastValue {V : Type} (h : List (Str × V)) (n : Str) : Option V :=
  ((h.filter (fun p => p.1 = n)).map (·.2)).getLast?

/-- Enumeration contract: for some `k`, the callback is applied, in order, to exactly the first
    `k` members; all those calls but the last returned `true`; and either everything was visited or
    the last call made returned `false`. `trace` is the list of the states before each call. -/
def VisitsPrefix {S A : Type} (f : Callback S A) (s s' : S) (as : List A) : Prop :=
  ∃ k, k ≤ as.length ∧
    (as.take k).foldl (fun t a => (f t a).1) s = s' ∧
    (∀ i a, i + 1 < k → as[i]? = some a →
       (f ((as.take i).foldl (fun t a => (f t a).1) s) a).2 = true) ∧
    (∀ i a, i + 1 = k → as[i]? = some a → k < as.length →
       (f ((as.take i).foldl (fun t a => (f t a).1) s) a).2 = false) ∧
    (k = 0 → as = [])

end Rtti.Spec
