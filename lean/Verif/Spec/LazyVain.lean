import Verif.Model.Lazy
import Verif.Spec.Create
/-
Searching class by class while deferred definitions run in between: what it means that a search was in vain.
-/
set_option autoImplicit false
namespace Rtti.Spec

/-- `t` is a state that `s` comes to by running deferred definitions (and taking and releasing locks of lists of base classes) -/
inductive Checks (fuel : Nat) (s : LW) : LW → Prop
  | refl : Checks fuel s s
  | check {t : LW} (p : Ptr) : Checks fuel s t → Checks fuel s (Lazy.check fuel p t).1
  | lock {t : LW} (i : List Ptr) : Checks fuel s t → Checks fuel s { t with iter := i }

/-- Between `s` and `s'` the class `a` was searched in vain: at some moment its definition was complete and it had no such member, and from then on each base
    class it had at that moment was searched in vain. -/
inductive Vain (fuel : Nat) (Own : World → Ptr → Ptr → Prop) (s' : LW) : LW → Ptr → Prop
  | mk {s s1 : LW} {a : Ptr} : Checks fuel s s1 → Checks fuel s1 s' → s1.pending a = none → (∀ m, ¬Own s1.w a m) →
      (∀ b, DeclaredBase s1.w a b → Vain fuel Own s' s1 b) → Vain fuel Own s' s a

end Rtti.Spec
