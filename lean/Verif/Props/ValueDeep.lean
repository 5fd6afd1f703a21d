import Verif.Props.ValueArray
import Verif.Props.EqualDeep
/-! C44 for types with 16 pointers and more. -/
set_option autoImplicit false
namespace Rtti.Props
open Rtti Spec Val

/-- C44 at 16 pointers and more: what is handed out has as many pointers, and const in the same places of the 16 innermost levels.
    Missing: the levels outside, which are not compared (`C44_deep_false`). -/
theorem C44_deep_partial {rank : TypeId → Nat} {E : Env} (r : Reachable rank E.w) {v : Vnt} (sd : Sound E v)
    {u : CType} {a₀ : Addr} (st : Stands v u a₀) (acc : Access) (t : CType) {m : Nat} (hu : Depth u m) (h16 : 16 ≤ m) (hm : m < 65536)
    (ht : t.pointerArity < 65536) (a : Addr) (h : reference E v acc t = .ok a) :
    Depth t m ∧ ∀ k, k < 16 → (ConstAt u k ↔ ConstAt t k) := by
  have ar := (depth_iff _ _).1 hu
  have href : (acc.target t).ref ≠ .none := by cases acc <;> simp [Access.target]
  have hf := (((C42_reference_exact r sd st acc t (by omega) ht).1 a).1 h).2.1
  obtain ⟨hd, e, rfl⟩ := st.held
  rw [vtype e] at hf
  have arS : (hd.type acc.attr).t.pointerArity = m := by rw [type_arity, ar]
  have arT : (acc.target t).t.pointerArity = t.pointerArity := by
    rcases target_t acc t with e | e <;> rw [e]
    exact addConst_arity _
  have na : (hd.type acc.attr).t.isArray = false := by
    cases hx : (hd.type acc.attr).t.isArray with
    | false => rfl
    | true => have := arity_arr hx; omega
  have eff : effArity (hd.type acc.attr) (acc.target t) = m := by
    unfold effArity
    rw [na, arS]; rfl
  have hmm : t.pointerArity = m := by
    refine Classical.byContradiction fun hne => ?_
    have := compatible_levels (hd.type acc.attr) (acc.target t) (by omega) (by omega) (by rw [eff, arT]; exact fun x => hne x.symm)
    unfold Fits at hf
    rw [this] at hf
    cases hf
  have nb : ¬NeverBinds (hd.type acc.attr) (acc.target t) := by
    intro hb
    have := refused_false hb
    unfold Fits at hf
    rw [this] at hf
    cases hf
  have y := (C10_deep_answer _ _ m ((depth_iff _ _).2 arS.symm) ((depth_iff _ _).2 (by rw [arT, hmm])) hm
    (by rw [if_neg href]; exact h16) nb).1 hf
  refine ⟨(depth_iff _ _).2 hmm.symm, fun k hk => ?_⟩
  have := y k hk
  have e1 : ConstAt (hd.type acc.attr).t k ↔ ConstAt hd.u k := by
    rcases type_t hd acc.attr with e | e <;> rw [e]
    exact constAt_addConst ar.symm (by omega)
  have e2 : ConstAt (acc.target t).t k ↔ ConstAt t k := by
    rcases target_t acc t with e | e <;> rw [e]
    exact constAt_addConst hmm (by omega)
  rw [← e1, ← e2]
  exact this

/-- C44 is false at 16 pointers: a variant that refers to a const pointer hands out a reference through which the pointer can be
    changed. -/
theorem C44_deep_false : ∃ (E : Env) (v : Vnt) (u t : CType) (a : Addr), Sound E v ∧ Stands v u a ∧ Depth u 16 ∧ v.held = some ⟨true, u⟩ ∧
    IsConst u ∧ ¬IsConst t ∧ ArrayFree u ∧ SameDecay u t ∧ reference E v .ref t = .ok a := by
  have free : ∀ n, ArrayFree (ptrs Ex.nn n Ex.int) := by
    intro n
    induction n with
    | zero => exact .base _ _
    | succ n ih => exact .ptr _ ih
  have st : Stands ⟨some ⟨true, .ptr Ex.kk (ptrs Ex.nn 15 Ex.int)⟩, 1000, 5000⟩ (.ptr Ex.kk (ptrs Ex.nn 15 Ex.int)) 5000 := .ref _ rfl
  refine ⟨ExV.env, _, .ptr Ex.kk (ptrs Ex.nn 15 Ex.int), .ptr Ex.nn (ptrs Ex.nn 15 Ex.int), 5000, ?_, st, (depth_iff _ _).2 rfl, rfl,
    .ptr _ _, nofun, .ptr _ (free 15), (fullDecay_iff _ _).1 (by decide), by decide +kernel⟩
  refine ⟨by decide, by decide, fun t a h => ?_, fun b q a h => ?_⟩
  · rw [(h.unique st).2]; decide
  · obtain ⟨e, _⟩ := h.unique st; cases e

/-- one pointer fewer: refused -/
example : reference ExV.env ⟨some ⟨true, .ptr Ex.kk (ptrs Ex.nn 14 Ex.int)⟩, 1000, 5000⟩ .ref (.ptr Ex.nn (ptrs Ex.nn 14 Ex.int)) = .throw .badVariantCast ∧
    reference ExV.env ⟨some ⟨true, .ptr Ex.kk (ptrs Ex.nn 15 Ex.cint)⟩, 1000, 5000⟩ .ref (.ptr Ex.nn (ptrs Ex.nn 15 Ex.int)) = .throw .badVariantCast := by
  decide +kernel

end Rtti.Props
