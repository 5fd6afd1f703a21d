import Verif.Model.AttrRace
import Verif.Lemmas.NamedList
/-! The invariant behind C65. -/
set_option autoImplicit false
namespace Rtti.AttrRace
open Spec
variable {V : Type}

structure Ok (s : State V) : Prop where
  rep : NamedList.Rep s.list s.hist
  ref : ∀ t i, s.ref t = some i → s.asked t ≠ [] ∧ s.list.names (s.asked t) = some i
  writer : ∀ t n v, s.writer = some (t, n, v) → n ≠ []

theorem set_names {l l' : NamedList V} {n : Str} {v : V} (h : l.set n v = some l') {m : Str} {i : Nat} (e : l.names m = some i) :
    l'.names m = some i := by
  unfold NamedList.set at h
  split at h
  · cases h; exact e
  · split at h
    · rename_i hn
      cases h
      dsimp only
      split
      · rename_i e'; rw [e', hn] at e; cases e
      · exact e
    · split at h
      · cases h
      · cases h; exact e

theorem Ok.init : Ok (init : State V) := ⟨NamedList.Rep.empty, (fun _ _ h => by cases h), (fun _ _ _ h => by cases h)⟩

theorem Ok.step {s : State V} (h : Ok s) (a : Act V) : Ok (step s a) := by
  cases a with
  | lookup t n =>
    simp only [AttrRace.step]
    split
    · refine ⟨h.rep, fun u i e => ?_, h.writer⟩
      by_cases hu : u = t
      · simp [upd, hu] at e
      · simp only [upd, hu, if_false] at e ⊢; exact h.ref u i e
    · rename_i hn
      split
      · exact h
      · refine ⟨h.rep, fun u i e => ?_, h.writer⟩
        by_cases hu : u = t
        · simp only [upd, hu, if_true] at e ⊢
          refine ⟨hn, ?_⟩
          cases hx : s.list.names n with
          | none => rw [hx] at e; cases e
          | some j =>
            rw [hx] at e
            simp only [Option.filter] at e
            split at e
            · cases e; rfl
            · cases e
        · simp only [upd, hu, if_false] at e ⊢; exact h.ref u i e
  | lock t n v =>
    simp only [AttrRace.step]
    split
    · exact h
    · rename_i hn
      refine ⟨h.rep, h.ref, fun t' n' v' e => ?_⟩
      cases e
      exact fun e => hn (.inl e)
  | write t =>
    simp only [AttrRace.step]
    split
    · rename_i t' n v hw
      split
      · obtain ⟨l, hl, hr⟩ := h.rep.set n v
        rw [hl]
        refine ⟨hr, fun u i e => ⟨(h.ref u i e).1, set_names hl (h.ref u i e).2⟩, fun _ _ _ e => by cases e⟩
      · exact h
    · exact h
  | read t =>
    simp only [AttrRace.step]
    split <;> exact ⟨h.rep, h.ref, h.writer⟩

theorem Ok.run {s : State V} (h : Ok s) (as : List (Act V)) : Ok (run s as) := by
  induction as generalizing s with
  | nil => exact h
  | cons a as ih => exact ih (h.step a)

end Rtti.AttrRace
