import Verif.Model.Lazy
/-! What "runs once, in order" and "as if defined eagerly" mean, in terms of the ghost record of events and of
the shape of programs only. -/
set_option autoImplicit false
namespace Rtti.Spec

/-- the lazy definitions accepted for a container, in order -/
def installedFor (p : Nat) : List Event → List (List Cmd)
  | [] => []
  | .installed q b :: l => if q = p then b :: installedFor p l else installedFor p l
  | _ :: l => installedFor p l

/-- the lazy definitions of a container that were run, in order -/
def startedFor (p : Nat) : List Event → List (List Cmd)
  | [] => []
  | .started q b :: l => if q = p then b :: startedFor p l else startedFor p l
  | _ :: l => startedFor p l

/-- how many of them ended -/
def finishedFor (p : Nat) : List Event → Nat
  | [] => 0
  | .finished q :: l => if q = p then finishedFor p l + 1 else finishedFor p l
  | _ :: l => finishedFor p l

mutual
/-- the program does not install a lazy definition on `c` (nor do the ones it installs) -/
def NoInstall (c : Nat) : Cmd → Prop
  | .install p b => p ≠ c ∧ NoInstalls c b
  | .attempt b => NoInstalls c b
  | .op _ | .setAttr .. | .query _ | .raise => True
def NoInstalls (c : Nat) : List Cmd → Prop
  | [] => True
  | x :: l => NoInstall c x ∧ NoInstalls c l
end

/-- queries about the container `c`, an object of kind `k`, itself -/
def Asks (c : Nat) (k : Cat) : Query → Prop
  | .item p _ _ | .itemAt p _ _ | .count p _ | .constructor p _ | .attr p _ | .baseCount p | .derivedCount p => p = c
  | .method p n | .property p n => p = c ∧ n ≠ []
  | .inherited p b | .cast p b _ => k = .cls ∧ p = c ∧ b ≠ none ∧ b ≠ some c

/-- equal but for the ghost record -/
def SameBut (s t : LW) : Prop :=
  s.w = t.w ∧ s.attrs = t.attrs ∧ s.pending = t.pending ∧ s.running = t.running ∧ s.iter = t.iter

mutual
/-- a definition that only defines into its own container `c`: it adds members and base classes to `c`, sets
    attributes of `c`, registers types, asks anything, throws and catches, but installs nothing and changes no
    other container -/
def Local (c : Nat) : Cmd → Prop
  | .op (.registerType _) => True
  | .op (.createNamespace o _) | .op (.createClass o _ _) | .op (.createEnum o _) | .op (.createMethod o _ _)
  | .op (.createProperty o _ _) | .op (.createConstructor o _ _) | .op (.addBase o _ _) => o = c
  | .setAttr p _ _ => p = c
  | .query _ => True
  | .raise => True
  | .install .. => False
  | .attempt b => Locals c b
def Locals (c : Nat) : List Cmd → Prop
  | [] => True
  | x :: l => Local c x ∧ Locals c l
end

/-- the answer to a query when nothing is pending: what the functions of `Model/World.lean` say, members and attributes as
    lists -/
def answer (s : LW) : Query → Res Ans
  | .item c k n => ansOf .ptr (s.w.getItem c k n)
  | .itemAt c k i => if s.w.isContainer c then .val (.ptr ((s.w.cont c k).items[i]?.map (·.ptr))) else .ub
  | .count c k => if s.w.isContainer c then .val (.num (s.w.cont c k).items.length) else .ub
  | .constructor c n => ansOf .ptr (s.w.getConstructor c n)
  | .method c n => ansOf .ptr (s.w.getMethod c n)
  | .property c n => ansOf .ptr (s.w.getProperty c n)
  | .attr c n => .val (.attr (((s.attrs c).items.find? (·.1 = n)).map (·.2)))
  | .baseCount c => if s.w.kind c = some .cls then .val (.num (s.w.cls c).bases.length) else .ub
  | .derivedCount c => if s.w.kind c = some .cls then .val (.num (s.w.cls c).derived.length) else .ub
  | .inherited c b => if s.w.kind c = some .cls then ansOf .bool (s.w.inheritedFrom c b) else .ub
  | .cast c b a => if s.w.kind c = some .cls then ansOf .num (s.w.cast c b a) else .ub
where
  ansOf {A : Type} (f : A → Ans) : Res A → Res Ans
    | .val a => .val (f a)
    | .throw e => .throw e
    | .ub => .ub
    | .diverge => .diverge

end Rtti.Spec
