import Verif.Props.ValueEdge
import Verif.Props.CompatArray
/-! C44 without side conditions on the types: const is kept at every level that is not inside an array. -/
set_option autoImplicit false
namespace Rtti.Props
open Rtti Spec Val

private theorem through_addConst {t s : CType} {k : Nat} (h : Through t k s) :
    ∃ s', Through (addConst t) k s' ∧ (IsConst s → IsConst s') := by
  cases h with
  | here => exact ⟨_, .here _, fun _ => (isConst_iff _).1 (addConst_isConst _)⟩
  | ptr q h => exact ⟨_, .ptr _ h, id⟩

/-- C44, whatever the variant stands for, null pointers and arrays included: what is handed out as something else than a pointer to
    elements of an array is at every level outside arrays at least as const as the object. Missing: inside arrays of pointers
    (`C44_false`); 16 pointers and more, where outer levels are not compared (`C08_deep_false`). -/
theorem C44_outside_arrays_partial {rank : TypeId → Nat} {E : Env} (r : Reachable rank E.w) {v : Vnt} (sd : Sound E v)
    {u : CType} {a₀ : Addr} (st : Stands v u a₀) (acc : Access) (t : CType) (hu : u.pointerArity < 65536) (ht : Shallow t)
    (hp : (∀ n e, u ≠ .arr n e) ∨ (∃ n e, t = .arr n e)) (a : Addr) (h : reference E v acc t = .ok a)
    (k : Nat) (s s' : CType) (hs : Through u k s) (hs' : Through (acc.target t).t k s') (hc : IsConst s) : IsConst s' := by
  have href : (acc.target t).ref ≠ .none := by cases acc <;> simp [Access.target]
  have hf := (((C42_reference_exact r sd st acc t hu (by unfold Shallow at ht; omega)).1 a).1 h).2.1
  obtain ⟨hd, e, rfl⟩ := st.held
  rw [vtype e] at hf
  have hp' : (∀ n e, (hd.type acc.attr).t ≠ .arr n e) ∨ ∃ n e, (acc.target t).t = .arr n e := by
    rw [not_arr_iff, arr_iff] at hp ⊢
    rcases hp with hp | hp
    · left
      rcases type_t hd acc.attr with e | e <;> rw [e]
      · exact hp
      · rwa [addConst_isArray]
    · right
      rcases target_t acc t with e | e <;> rw [e]
      · exact hp
      · rwa [addConst_isArray]
  obtain ⟨s₁, h1, h2⟩ : ∃ s₁, Through (hd.type acc.attr).t k s₁ ∧ (IsConst s → IsConst s₁) := by
    rcases type_t hd acc.attr with e | e <;> rw [e]
    · exact ⟨s, hs, id⟩
    · exact through_addConst hs
  exact C08_outside_arrays _ _ ((depth_iff _ _).2 rfl) (by rw [type_arity]; exact hu) ((depth_iff _ _).2 rfl) (.inl (shallow_target ht)) hp' hf k s₁ s' h1 hs'
    (fun _ => href) (h2 hc)

open ExV in
example : reference env vCD .refConst (ccls D) = .ok 5000 ∧ Through (ccls D) 0 (ccls D) ∧ IsConst (ccls D) :=
  ⟨by decide +kernel, .here _, .base _ _⟩

end Rtti.Props
