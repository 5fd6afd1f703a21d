import Verif.Spec.Hierarchy
import Verif.Model.QName
namespace Rtti.Spec
open Rtti

/-- `path` lists the names from just below the global namespace down to `p` -/
inductive HasPath (w : World) : Ptr → List Str → Prop
  | global : HasPath w World.globalNs []
  | member {o p : Ptr} {path : List Str} : w.owner p = some o → HasPath w o path →
      HasPath w p (path ++ [w.name p])

/-- the path written out: "::" and the name for each step -/
def spell (path : List Str) : Str := (path.map (fun n => [':', ':'] ++ n)).flatten

/-- the name of `p` is one that has to be built for the name of `x`, given the names built before: `p` is `x` or an owner of it,
    and neither it nor anything on the way to it has a name yet -/
inductive Uncached (w : World) (names : Ptr → Str) : Ptr → Ptr → Prop
  | here {x : Ptr} : names x = [] → Uncached w names x x
  | step {x o p : Ptr} : names x = [] → w.owner x = some o → Uncached w names o p → Uncached w names x p

/-- histories of API calls and qualified-name queries (of live objects) -/
inductive QReachable (rank : TypeId → Nat) : QName.State → Prop
  | init : QReachable rank QName.init
  | api {s} (op : World.Op) : QReachable rank s → Legal rank s.world op →
      (s.world.step op).2 ≠ .ub → (s.world.step op).2 ≠ .diverge → QReachable rank (QName.step s (.api op))
  | missed {s} (o : Ptr) (k : Cat) (n : Str) : QReachable rank s → s.world.isContainer o = true → k = .method ∨ k = .property →
      QReachable rank { s with world := missed s.world o k n }
  | query {s} (p : Ptr) (k : Cat) : QReachable rank s → s.world.kind p = some k →
      QReachable rank (QName.step s (.query p))

end Rtti.Spec
