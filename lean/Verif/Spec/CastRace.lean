import Verif.Model.CastRace
/-! What C84 says of an upcast, without the code: ways from a class up to another, and the casters on them. -/
set_option autoImplicit false
namespace Rtti.CastRace

/-- `t` is `d` or one of its direct or indirect bases -/
inductive Leads (g : Graph) : Ptr → Ptr → Prop
  | refl (d : Ptr) : Leads g d d
  | step {d t : Ptr} (it : Ptr × Caster) : it ∈ g d → Leads g it.1 t → Leads g d t

/-- from class `d` and address `x`, one declared caster after the other gives the address `y` at class `t` -/
inductive Route (g : Graph) : Ptr → Addr → Ptr → Addr → Prop
  | refl (d : Ptr) (x : Addr) : Route g d x d x
  | step {d : Ptr} {x : Addr} {t : Ptr} {y : Addr} (it : Ptr × Caster) : it ∈ g d → Route g it.1 (it.2 x) t y → Route g d x t y

/-- the same, always by the base declared first among those that lead to `t` -/
inductive First (g : Graph) (t : Ptr) : Ptr → Addr → Addr → Prop
  | here (x : Addr) : First g t t x x
  | up {c : Ptr} {x y : Addr} (pre : List (Ptr × Caster)) (it : Ptr × Caster) (post : List (Ptr × Caster)) : c ≠ t →
      g c = pre ++ it :: post → (∀ p ∈ pre, ¬Leads g p.1 t) → Leads g it.1 t → First g t it.1 (it.2 x) y → First g t c x y

/-- nothing was taken away or put in between -/
def Grown (g g' : Graph) : Prop := ∀ c, g c <+: g' c

end Rtti.CastRace
