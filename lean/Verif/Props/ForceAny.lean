import Verif.Props.Force
import Verif.Lemmas.ForceAny
/-! C62 whatever the callbacks do, installing further definitions included. -/
set_option autoImplicit false
namespace Rtti.Props
open Lazy Spec

/-- After a recursive force that returns, every definition accepted before for a container of the tree has run, once each and in order, whatever the
    callbacks do. What is still pending for one of them was installed meanwhile. -/
theorem C62_earlier_run (fuel n d : Nat) (cs : List Cmd) (p : Nat) (hp : (afterRun fuel cs).w.isContainer p = true) (s' : LW)
    (h : force (n + 1) d p (afterRun fuel cs) = (s', .val ())) (q : Nat) (hq : Below (afterRun fuel cs).w p q) :
    installedFor q (afterRun fuel cs).log <+: startedFor q s'.log ∧
    startedFor q s'.log <+: installedFor q s'.log ∧ finishedFor q s'.log = (startedFor q s'.log).length ∧
    ∀ b, s'.pending q = some b → (installedFor q (afterRun fuel cs).log).length < (installedFor q s'.log).length := by
  have hT := top_init.run fuel cs
  have hlt : p < (afterRun fuel cs).w.next := by
    rcases (World.isContainer_iff _ _).1 hp with h | h <;> exact hT.kinds p _ h
  have hb : Begun (afterRun fuel cs) s' q := force_begun ⟨hT, sound_run fuel cs⟩ hlt h q hq
  have hT' := hT.force (n + 1) d p
  rw [h] at hT'
  have ha := hT'.account q
  refine ⟨hb, by rw [ha.1]; exact List.prefix_append _ _, ha.2, fun b e => ?_⟩
  have := hb.length_le
  rw [ha.1, e]
  simp only [Option.toList_some, List.length_append, List.length_singleton]
  omega

-- a callback of the nested class installs one for the class around it, which was visited before
def restless : List Cmd := forest.take 7 ++ [.install 3 [.op (.createEnum 3 ['e'])], .install 4 [.install 3 [.op (.createEnum 3 ['f'])]]]
example : (force 6 4 1 (afterRun 6 restless)).2 = .val () ∧ (installedFor 3 (afterRun 6 restless).log).length = 1 ∧
    (startedFor 3 (force 6 4 1 (afterRun 6 restless)).1.log).length = 1 ∧ (installedFor 3 (force 6 4 1 (afterRun 6 restless)).1.log).length = 2 := by decide +kernel
example : Below (afterRun 6 restless).w 1 3 := .nmspace (c := 2) (n := ['N']) (by decide +kernel) (.cls (c := 3) (n := ['A']) (by decide +kernel) (.refl 3))

end Rtti.Props
