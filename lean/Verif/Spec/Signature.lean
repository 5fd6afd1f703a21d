import Verif.Model.Basic
/-
What a type name may look like for a comma-separated list of names to be readable back. Independent of
how the text is produced.
-/
namespace Rtti.Spec

def isOpen (c : Char) : Bool := c = '(' || c = '<' || c = '[' || c = '{'
def isClose (c : Char) : Bool := c = ')' || c = '>' || c = ']' || c = '}'

/-- Starting inside `d` open brackets: no bracket is closed that was not opened, there is no comma
    outside all brackets, and at the end every bracket is closed. -/
def Balanced : Nat → Str → Prop
  | d, [] => d = 0
  | d, c :: cs =>
    if isOpen c then Balanced (d + 1) cs
    else if isClose c then ∃ d', d = d' + 1 ∧ Balanced d' cs
    else (c = ',' → d ≠ 0) ∧ Balanced d cs

instance : ∀ d s, Decidable (Balanced d s)
  | d, [] => inferInstanceAs (Decidable (d = 0))
  | d, c :: cs => by
    unfold Balanced
    split
    · exact instDecidableBalanced (d + 1) cs
    · split
      · cases d with
        | zero => exact .isFalse (by simp)
        | succ d' =>
          exact match instDecidableBalanced d' cs with
            | .isTrue h => .isTrue ⟨d', rfl, h⟩
            | .isFalse h => .isFalse (by rintro ⟨x, e, hx⟩; cases e; exact h hx)
      · exact match instDecidableBalanced d cs with
          | .isTrue h => if hc : c = ',' → d ≠ 0 then .isTrue ⟨hc, h⟩ else .isFalse (fun x => hc x.1)
          | .isFalse h => .isFalse (fun x => h x.2)

/-- a usable type name -/
def TypeName (s : Str) : Prop := s ≠ [] ∧ Balanced 0 s

instance (s : Str) : Decidable (TypeName s) := inferInstanceAs (Decidable (_ ∧ _))

end Rtti.Spec
