import Verif.Props.TypeTraits
/-! C79: exactly where the description of a type and the traits disagree. -/
set_option autoImplicit false
namespace Rtti.Props
open Rtti Spec Rtti.Val

/-- C79: the description is wrong about pointers to class objects exactly for pointers to arrays of class objects,
    or of anything made of such. -/
theorem C79_class_pointer_exact (T : RType) (h : T.t.pointerArity < 65536) :
    (describe T).isClassPtr ≠ T.isClassPtr ↔ ∃ q n t, T.t = .ptr q (.arr n t) ∧ Bottom t .cls := by
  have h1 := (C06_pointers T h).1
  have h2 := (C79_questions T).2
  constructor
  · intro hne
    refine Classical.byContradiction fun hno => hne (Bool.eq_iff_iff.2 ?_)
    rw [h1, h2]
    constructor
    · rintro ⟨q, t, e, hd, b, hb, hk⟩
      cases hd with
      | base b' q' => cases hb; exact ⟨q, _, _, e, hk⟩
      | arr n t =>
        cases hb with
        | arr _ hb => exact absurd ⟨q, n, _, e, b, hb, hk⟩ hno
    · rintro ⟨q, b, q', e, hk⟩
      exact ⟨q, _, e, .base b q', b, .base b q', hk⟩
  · rintro ⟨q, n, t, e, b, hb, hk⟩ heq
    have h3 := h1.2 ⟨q, _, e, .arr n t, b, .arr n hb, hk⟩
    rw [heq, h2] at h3
    obtain ⟨q', b', q'', e', _⟩ := h3
    rw [e] at e'
    cases e'

/-- C79: the description is wrong about copying exactly for pointers, arrays and functions over a type that cannot be copied: they decay to pointers,
    which can. -/
theorem C79_copyable_exact (r : Ref) (t : CType) :
    (describe ⟨r, t⟩).flags.testBit 18 ≠ copyable t ↔ (∀ b q, t = .base b q → b.kind = .func) ∧ ¬BottomIs t (·.copyC) := by
  have hf := (C06_flags ⟨r, t⟩).2.1 18 _ rfl
  have hc : copyable t = true ↔ ((∀ b q, t = .base b q → b.kind = .func) ∨ BottomIs t (·.copyC)) := by
    cases t with
    | base b q =>
      by_cases hk : b.kind = .func
      · simp [copyable, CType.fullDecay, CType.decay, hk, CType.removeAllCv]
      · simp only [copyable, CType.fullDecay, CType.decay, hk, if_false, CType.removeAllCv]
        constructor
        · intro h; exact .inr ⟨b, .base b q, h⟩
        · rintro (h | ⟨b', hb, h⟩)
          · exact absurd (h b q rfl) hk
          · cases hb; exact h
    | ptr q t => simp [copyable, CType.fullDecay, CType.decay, CType.removeAllCv]
    | arr n t => simp [copyable, CType.fullDecay, CType.decay, CType.removeAllCv]
  rw [ne_eq, Bool.eq_iff_iff, hf, hc]
  constructor
  · intro h
    by_cases hb : BottomIs t (·.copyC)
    · exact absurd ⟨fun _ => .inr hb, fun _ => hb⟩ h
    · refine ⟨Classical.byContradiction fun hn => h ⟨fun h' => absurd h' hb, fun h' => ?_⟩, hb⟩
      rcases h' with h' | h'
      · exact absurd h' hn
      · exact h'
  · rintro ⟨h1, h2⟩ h
    exact h2 (h.2 (.inl h1))

/-- C79: the description is wrong about comparing exactly for arrays of objects without `==`. (`==` of the elements throws nothing.) -/
theorem C79_comparable_exact {E : Env} (C : Cmp) {v w : Vnt} (sv : Sound E v) (sw : Sound E w) {u : CType} {a a' : Addr}
    (st : Stands v u a) (st' : Stands w u a') (hu : Shallow u) (n : Nat) (e : CType) (hn : Flat u n e) (r : Ref)
    (hsay : ∀ x y, says E C e x y ≠ none) :
    ((describe ⟨r, u⟩).flags.testBit 23 = true ↔ ∃ b, equal E C v w = .ok b) ↔ ¬((∃ k t, u = .arr k t) ∧ ¬Comparable e) := by
  have hf := (C06_flags ⟨r, u⟩).2.1 23 _ rfl
  obtain ⟨h1, h2, h3⟩ := C40_same_type_partial C sv sw st st' hu ((sameTop_iff _ _).2 rfl) n e hn
  have hok : (∃ b, equal E C v w = .ok b) ↔ Comparable e := by
    constructor
    · rintro ⟨b, hb⟩
      refine Classical.byContradiction fun hc => ?_
      have h4 := h1 hc
      rw [hb] at h4
      cases h4
    · intro hc
      by_cases haa : a = a'
      · exact ⟨true, h2 hc haa⟩
      · obtain ⟨R, h4, h5⟩ := h3 hc haa
        generalize equal E C v w = z at h5 ⊢
        cases h4 with
        | equal h => cases h5; exact ⟨true, rfl⟩
        | differ k _ _ h => cases h5; exact ⟨false, rfl⟩
        | throws k _ _ h => exact absurd h (hsay _ _)
  rw [hf, hok]
  cases hn with
  | base b q => simp [Comparable]
  | ptr q t => simp [Comparable]
  | arr k hn => simp

-- a pointer to an array of pointers to class objects
example : (describe ⟨.none, .ptr ⟨false, false⟩ (.arr 3 (.ptr ⟨false, false⟩ (.base ExV.B ⟨false, false⟩)))⟩).isClassPtr = true ∧
    RType.isClassPtr ⟨.none, .ptr ⟨false, false⟩ (.arr 3 (.ptr ⟨false, false⟩ (.base ExV.B ⟨false, false⟩)))⟩ = false := by decide +kernel

end Rtti.Props
