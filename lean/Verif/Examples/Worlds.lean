import Verif.Lemmas.Define
/-
Concrete worlds for the non-vacuity examples and counterexamples. Not part of any theorem's proof
except the `∃`-witnesses.
-/
namespace Rtti.Ex
open Rtti Spec World

/-- classes B(2,type 1) L(3,type 2) R(4,type 3) D(5,type 4); L : B, R : B, D : L, R (non-virtual:
    L at offset 0, R at offset 8 of D); B has method "f()" (6), property "p" (7), constructor
    "c()" (8); R has method "g()" (9) -/
def diamondOps : List Op :=
  [.registerType 1, .registerType 2, .registerType 3, .registerType 4,
   .createClass 1 ['B'] 1, .createClass 1 ['L'] 2, .createClass 1 ['R'] 3, .createClass 1 ['D'] 4,
   .addBase 3 1 id, .addBase 4 1 id, .addBase 5 2 id, .addBase 5 3 (· + 8),
   .createMethod 2 ['f', '(', ')'] true, .createProperty 2 ['p'] true,
   .createConstructor 2 ['c', '(', ')'] true, .createMethod 4 ['g', '(', ')'] true]

def diamond : World := World.init.run diamondOps

theorem diamond_reachable : Reachable id diamond := reachable_run .init _ (by decide)

/-- two unrelated bases 2 and 3 of 4; the second has "f()" (5) -/
def twoBasesOps : List Op :=
  [.registerType 1, .registerType 2, .registerType 3,
   .createClass 1 ['A'] 1, .createClass 1 ['B'] 2, .createClass 1 ['D'] 3,
   .addBase 4 1 id, .addBase 4 2 id, .createMethod 3 ['f', '(', ')'] true]

def twoBases : World := World.init.run twoBasesOps

theorem twoBases_reachable : Reachable id twoBases := reachable_run .init _ (by decide)

end Rtti.Ex
