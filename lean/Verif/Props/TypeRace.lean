import Verif.Lemmas.TypeRace
import Verif.Props.Types
/-! C67: types registered by several threads. `nm` is `type_name<T>()`, `ask t` the type thread `t` asks for. -/
set_option autoImplicit false
namespace Rtti.Props
open Rtti.TypeRace

/-- Under every interleaving: two threads that got ids got the same id exactly if their types have the same name, and
    no id is the invalid one. -/
theorem C67_ids (nm : RType → Str) (hn : ∀ T, nm T ≠ []) (ask : Nat → RType) (ts : List Nat) (t u i j : Nat)
    (ht : (run nm (start ask) ts).pc t = .done i) (hu : (run nm (start ask) ts).pc u = .done j)
    (vt : Reg.isVoid (ask t) = false) (vu : Reg.isVoid (ask u) = false) :
    i ≠ 0 ∧ (i = j ↔ nm (ask t) = nm (ask u)) := by
  have h := ((Ok.start nm ask).run hn ts).1
  have h1 := h.pc t
  have h2 := h.pc u
  rw [ht] at h1; rw [hu] at h2
  simp only [PcOk, vt, vu, Bool.false_eq_true, false_and, true_and, false_or] at h1 h2
  obtain ⟨p, _, x, hx, hxn⟩ := h.reg.names _ _ h1
  obtain ⟨_, _, y, hy, hyn⟩ := h.reg.names _ _ h2
  refine ⟨Nat.pos_iff_ne_zero.1 p, fun e => ?_, fun e => ?_⟩
  · subst e; rw [hx] at hy; cases hy; rw [← hxn, hyn]
  · rw [e, h2] at h1; cases h1; rfl

/-- The registry shows for it the type's own description, and the decayed type's id: the one any thread gets that asks
    for the decayed type. -/
theorem C67_description (nm : RType → Str) (hn : ∀ T, nm T ≠ []) (ask : Nat → RType)
    (hinj : ∀ S T, Asked ask S → Asked ask T → nm S = nm T → S = T)
    (ts : List Nat) (t i : Nat) (ht : (run nm (start ask) ts).pc t = .done i) (vt : Reg.isVoid (ask t) = false) :
    ∃ d, (run nm (start ask) ts).reg.info i = some ⟨nm (ask t), describe (ask t), d⟩ ∧
      ∀ u j, ask u = ⟨.none, (ask t).t.fullDecay⟩ → Reg.isVoid (ask u) = false → (run nm (start ask) ts).pc u = .done j → d = j := by
  have h := ((Ok.start nm ask).run hn ts).1
  have h1 := h.pc t
  rw [ht] at h1
  simp only [PcOk, vt, Bool.false_eq_true, false_and, true_and, false_or] at h1
  obtain ⟨d, a, b, c⟩ := h.reg.content hinj _ _ ⟨t, .inl rfl⟩ h1
  refine ⟨d, a, fun u j hu vu hj => ?_⟩
  have h2 := h.pc u
  rw [hj] at h2
  simp only [PcOk, vu, Bool.false_eq_true, false_and, true_and, false_or] at h2
  by_cases ho : Own (ask t)
  · rw [b ho]
    rcases ho with ho | ho
    · rw [hu] at h2; unfold decayOf at ho; rw [← ho, h1] at h2; cases h2; rfl
    · rw [hu] at vu; unfold decayOf at ho; rw [ho] at vu; cases vu
  · have h3 := c ho
    rw [hu] at h2
    unfold decayOf at h3
    rw [h2] at h3; cases h3; rfl

/-- What was answered stays: after any further steps the id is known under the same name with the same description. -/
theorem C67_stable (nm : RType → Str) (hn : ∀ T, nm T ≠ []) (ask : Nat → RType) (ts ts' : List Nat) (t i : Nat)
    (ht : (run nm (start ask) ts).pc t = .done i) (vt : Reg.isVoid (ask t) = false) :
    (run nm (start ask) (ts ++ ts')).reg.names (nm (ask t)) = some i ∧
    (run nm (start ask) (ts ++ ts')).reg.info i = (run nm (start ask) ts).reg.info i := by
  have h := ((Ok.start nm ask).run hn ts).1
  have h1 := h.pc t
  rw [ht] at h1
  simp only [PcOk, vt, Bool.false_eq_true, false_and, true_and, false_or] at h1
  have g := (h.run hn ts').2
  rw [run_append]
  exact ⟨g.names _ _ h1, g.info _ _ h1⟩

/-- A static is initialised by one thread at a time. -/
theorem C67_exclusive (nm : RType → Str) (hn : ∀ T, nm T ≠ []) (ask : Nat → RType) (ts : List Nat) (t u : Nat) (T : RType)
    (h1 : Owns ((run nm (start ask) ts).pc t) T) (h2 : Owns ((run nm (start ask) ts).pc u) T) : t = u := by
  have h := ((Ok.start nm ask).run hn ts).1
  rw [← h.busy] at h1 h2
  rw [h1] at h2; cases h2; rfl

/-- The nested statics never block each other for good: from every state that can occur, every thread can still return. -/
theorem C67_no_deadlock (nm : RType → Str) (hn : ∀ T, nm T ≠ []) (ask : Nat → RType) (ts : List Nat) (t : Nat) :
    ∃ ts' id, (run nm (start ask) (ts ++ ts')).pc t = .done id := by
  obtain ⟨ts', id, h⟩ := ok_returns hn ((Ok.start nm ask).run hn ts).1 t
  exact ⟨ts', id, by rw [run_append]; exact h⟩

-- thread 0 asks for `int const&`, all others for `int`; thread 1 has to wait for thread 0, which then finds it registered
private def askEx (t : Nat) : RType := if t = 0 then ⟨.lref, Ex.cint⟩ else ⟨.none, Ex.int⟩
private def nmEx (T : RType) : Str := if T.ref = .lref then ['i', 'c'] else ['i']

example : ((run nmEx (start askEx) [0, 0, 1]).pc 1 = .enter ⟨.none, Ex.int⟩) ∧
    (run nmEx (start askEx) [0, 0, 1, 0, 0, 1, 2]).pc 0 = .done 2 ∧ (run nmEx (start askEx) [0, 0, 1, 0, 0, 1, 2]).pc 1 = .done 1 ∧
    (run nmEx (start askEx) [0, 0, 1, 0, 0, 1, 2]).pc 2 = .done 1 ∧
    (run nmEx (start askEx) [0, 0, 1, 0, 0, 1, 2]).reg.info 2 = some ⟨['i', 'c'], describe ⟨.lref, Ex.cint⟩, 1⟩ := ⟨rfl, rfl, rfl, rfl, rfl⟩
example : (∀ T, nmEx T ≠ []) ∧ ∀ S T, Asked askEx S → Asked askEx T → nmEx S = nmEx T → S = T := by
  have hd : decayOf ⟨.lref, Ex.cint⟩ = ⟨.none, Ex.int⟩ := by decide
  have hd' : decayOf ⟨.none, Ex.int⟩ = ⟨.none, Ex.int⟩ := by decide
  have key : ∀ T, Asked askEx T → T = ⟨.lref, Ex.cint⟩ ∨ T = ⟨.none, Ex.int⟩ := by
    rintro T ⟨t, rfl | rfl⟩ <;> unfold askEx <;> split <;> simp [hd, hd']
  refine ⟨fun T => by unfold nmEx; split <;> simp, fun S T hS hT e => ?_⟩
  rcases key S hS with rfl | rfl <;> rcases key T hT with rfl | rfl <;> first | rfl | exact absurd e (by decide)

end Rtti.Props
