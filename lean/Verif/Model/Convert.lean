import Verif.Model.World
/-
Running a converter: `ConvertFunctor::convert`, `ConvertFunctorOk::convert`,
/repo/include/rtti/metatype.h:668-681, 703-710.
The member-function kinds `ConvertMethod` and `ConvertMethodOk` (metatype.h:716-760) have the same two
bodies but contain `from->*_this.m_func()`, which parses as `from->*(_this.m_func())` and does not
compile when instantiated, so they cannot run.
-/
namespace Rtti

inductive ConvKind | functor | functorOk
deriving DecidableEq, Repr

/-- what the user's function does: returns a value (and, when it has the flag parameter, leaves `flag`
    in it: initially `false`), or throws; `ctorThrows`: constructing the `To` from the returned value throws -/
inductive UserCall
  | returns (flag : Bool) (ctorThrows : Bool)
  | throws
deriving DecidableEq, Repr

/-- outcome of `convert(self, in, out)`: what comes back to the caller, and whether `*out` now holds an
    object -/
inductive ConvRet | returned (b : Bool) | exception
deriving DecidableEq, Repr

def runConverter (k : ConvKind) (u : UserCall) : ConvRet × Bool :=
  match k, u with
  -- try { new (out) To(f(*from)); return true; } catch (...) { return false; }
  | .functor, .returns _ false => (.returned true, true)
  | .functor, .returns _ true => (.returned false, false)
  | .functor, .throws => (.returned false, false)
  -- auto result = false; new (out) To(f(*from, result)); return result;
  | .functorOk, .returns flag false => (.returned flag, true)
  | .functorOk, .returns _ true => (.exception, false)
  | .functorOk, .throws => (.exception, false)

end Rtti
