import Verif.Model.Force
/-! The tree of containers, and callbacks that install no further ones. -/
set_option autoImplicit false
namespace Rtti.Spec

/-- `q` is `p` or lies below `p`: a class or namespace that is a member of `p`, and so on -/
inductive Below (w : World) : Nat → Nat → Prop
  | refl (p : Nat) : Below w p p
  | cls {p c q : Nat} {n : Str} : ⟨c, n⟩ ∈ (w.cont p .cls).items → Below w c q → Below w p q
  | nmspace {p c q : Nat} {n : Str} : ⟨c, n⟩ ∈ (w.cont p .nmspace).items → Below w c q → Below w p q

mutual
/-- the program installs no lazy definition -/
def InstallsNothing : Cmd → Prop
  | .install .. => False
  | .attempt b => InstallNothing b
  | .op _ | .setAttr .. | .query _ | .raise => True
def InstallNothing : List Cmd → Prop
  | [] => True
  | x :: l => InstallsNothing x ∧ InstallNothing l
end

/-- the walk of `force` without the locks of the lists -/
def walk (n : Nat) : Nat → Nat → LM Unit
  | 0, _ => LM.diverge
  | d + 1, p =>
    (Lazy.check n p).bind fun _ =>
    LM.bind (fun s => Lazy.visit (fun q => (walk n d q).bind fun _ => LM.pure true) (s.w.cont p .cls).items s) fun _ =>
    fun s => Lazy.visit (fun q => (walk n d q).bind fun _ => LM.pure true) (s.w.cont p .nmspace).items s

/-- the elements up to and including the first refused one -/
def visited {A : Type} (more : A → Bool) : List A → List A
  | [] => []
  | a :: l => a :: if more a then visited more l else []

end Rtti.Spec
