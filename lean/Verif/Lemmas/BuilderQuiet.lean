import Verif.Lemmas.Builder
import Verif.Lemmas.LazyQuiet
import Verif.Lemmas.Ctors
/-
The builder in a world with nothing pending (C51, C52).
-/
set_option autoImplicit false
namespace Rtti.Builder
open Rtti Spec World

/-- the builder's call and the library's answer -/
theorem libQuiet {s : BS} (q : ∀ p, s.b.l.pending p = none) (hi : s.b.l.iter = []) {f fuel : Nat}
    (hf : s.b.l.w.depth + 1 ≤ fuel) {o : World.Op} {p : Option Ptr} (hv : (s.b.l.w.step o).2 = .val p) {B : Type}
    (k : Option Ptr → BS → BS × Res B) :
    lib (Lazy.op (Lazy.check (f + 1)) fuel o) s k =
      k p { s with b := { s.b with l := { s.b.l with w := (s.b.l.w.step o).1 } } } := by
  unfold lib
  rw [Lazy.op_quiet q hi hf o (by rw [hv]; simp)]
  dsimp only
  rw [hv]


theorem createConstructor_lib {s : LW} (q : ∀ p, s.pending p = none) {f fuel : Nat} {c : Ptr} (hc : s.w.isContainer c = true)
    (sig : Str) (hd : (s.w.createConstructor c sig true).2 ≠ .diverge) :
    Lazy.op (Lazy.check (f + 1)) fuel (.createConstructor c sig true) s =
      ({ s with w := (s.w.createConstructor c sig true).1 }, (s.w.createConstructor c sig true).2) := by
  simp only [Lazy.op, LM.bind, LM.read, hc, if_true, Bool.not_true, Bool.false_eq_true, if_false]
  exact Lazy.getOrCreate_quiet q (Nat.le_refl _) (fun w _ _ => Lazy.reads_getConstructor c sig { s with w := w } q) hd

theorem makeCtors_lib {rank} (cs : List Ctor) {s : LW} (q : ∀ p, s.pending p = none) {f fuel : Nat} (hr : Reachable rank s.w)
    {c : Ptr} (hc : s.w.isContainer c = true) :
    makeCtors (Lazy.check (f + 1)) fuel c cs s =
      ({ s with w := (s.w.defineConstructors c cs).1 }, (s.w.defineConstructors c cs).2) := by
  induction cs generalizing s with
  | nil => rfl
  | cons k cs ih =>
    obtain ⟨w', p, e, r', hc', _⟩ := define_one hr hc k
    have hl := createConstructor_lib q (f := f) (fuel := fuel) hc (ctorSignature k)
      (by rw [show s.w.createConstructor c (ctorSignature k) true = _ from e]; simp)
    rw [show s.w.createConstructor c (ctorSignature k) true = _ from e] at hl
    have := ih (s := { s with w := w' }) q r' hc'
    simp only [makeCtors, LM.bind, hl, World.defineConstructors, e]
    exact this

end Rtti.Builder
