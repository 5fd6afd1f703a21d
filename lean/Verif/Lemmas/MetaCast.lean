import Verif.Lemmas.Define
import Verif.Lemmas.Graph
import Verif.Spec.Create
import Verif.Model.MetaCast
/-
Lemmas for C56.
-/
set_option autoImplicit false
namespace Rtti.MetaCast
open Rtti Spec World

/-- registering a type changes neither the classes nor what is found -/
theorem register {rank} {w : World} (h : Reachable rank w) {t : TypeId} (ht : t ≠ 0) :
    Reachable rank (w.step (.registerType t)).1 ∧ (w.step (.registerType t)).1.find = w.find ∧
    (w.step (.registerType t)).1.kind = w.kind ∧ (w.step (.registerType t)).1.cls = w.cls := by
  refine ⟨.step _ h trivial (by simp [step, ht]) (by simp [step, ht]), ?_, by simp [step, ht], by simp [step, ht]⟩
  funext u
  simp only [step, ht, if_false, find, upd]
  by_cases hu : u = t
  · subst hu
    simp only [if_true]
    cases hm : w.metaClass u with
    | none => simp
    | some p => simp [((Inv.reachable h).mc _ _ hm).1]
  · simp [hu]

theorem reaches_congr {w w' : World} (hf : w'.find = w.find) (hc : w'.cls = w.cls) {d b : Ptr} (h : Reaches w d b) :
    Reaches w' d b := by
  induction h with
  | refl => exact .refl _
  | step h _ ih => exact .step (by simpa only [DeclaredBase, baseClass, baseClassCount, hf, hc] using h) ih

theorem leftPath_congr {w w' : World} (hf : w'.find = w.find) (hc : w'.cls = w.cls) {d b : Ptr} {fs : List Caster}
    (h : LeftPath w d b fs) : LeftPath w' d b fs := by
  induction h with
  | refl => exact .refl _
  | step h1 h2 h3 h4 _ ih =>
    exact .step h1 (by rw [hc]; exact h2) (by rw [hf]; exact h3)
      (fun x hx q hq hr => h4 x hx q (by rw [← hf]; exact hq) (reaches_congr hf.symm hc.symm hr)) ih

end Rtti.MetaCast
