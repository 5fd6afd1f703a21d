import Verif.Lemmas.CType
set_option autoImplicit false
namespace Rtti
open Spec

theorem removeAllCv_idem (t : CType) : t.removeAllCv.removeAllCv = t.removeAllCv := by
  induction t with
  | base b q => rfl
  | ptr q t ih => simp [CType.removeAllCv, ih]
  | arr n t ih => simp [CType.removeAllCv, ih]

theorem removeAllCv_iff (s t : CType) : s.removeAllCv = t.removeAllCv ↔ SameModCv s t := by
  constructor
  · intro h
    induction s generalizing t with
    | base b q => cases t <;> simp_all [CType.removeAllCv]; exact .base _ _ _
    | ptr q s ih =>
      cases t with
      | ptr q' t => simp only [CType.removeAllCv, CType.ptr.injEq, true_and] at h; exact .ptr _ _ (ih t h)
      | base => simp [CType.removeAllCv] at h
      | arr => simp [CType.removeAllCv] at h
    | arr n s ih =>
      cases t with
      | arr m t =>
        simp only [CType.removeAllCv, CType.arr.injEq] at h
        obtain ⟨rfl, h⟩ := h
        exact .arr _ (ih t h)
      | base => simp [CType.removeAllCv] at h
      | ptr => simp [CType.removeAllCv] at h
  · intro h
    induction h with
    | base => rfl
    | ptr _ _ _ ih => simp [CType.removeAllCv, ih]
    | arr _ _ ih => simp [CType.removeAllCv, ih]

theorem decay_of_pointsTo {s e : CType} (h : PointsTo s e) : s.decay = .ptr ⟨false, false⟩ e := by
  cases h with
  | ptr => rfl
  | arr => rfl
  | func b q h => simp [CType.decay, h]

theorem pointsTo_or (s : CType) : (∃ e, PointsTo s e) ∨ ∃ b q, b.kind ≠ .func ∧ s = .base b q := by
  cases s with
  | base b q =>
    by_cases h : b.kind = .func
    · exact .inl ⟨_, .func b q h⟩
    · exact .inr ⟨b, q, h, rfl⟩
  | ptr q t => exact .inl ⟨_, .ptr q t⟩
  | arr n t => exact .inl ⟨_, .arr n t⟩

theorem decay_base {b : Base} (q : CV) (h : b.kind ≠ .func) : (CType.base b q).decay = .base b ⟨false, false⟩ := by
  simp [CType.decay, h]

theorem fullDecay_iff (s t : CType) : s.fullDecay = t.fullDecay ↔ SameDecay s t := by
  unfold CType.fullDecay SameDecay
  rcases pointsTo_or s with ⟨e, he⟩ | ⟨b, q, hb, rfl⟩ <;> rcases pointsTo_or t with ⟨e', he'⟩ | ⟨b', q', hb', rfl⟩
  · rw [decay_of_pointsTo he, decay_of_pointsTo he']
    simp only [CType.removeAllCv, CType.ptr.injEq, true_and]
    rw [removeAllCv_iff]
    constructor
    · intro h; exact .inl ⟨e, e', he, he', h⟩
    · rintro (⟨f, f', hf, hf', h⟩ | ⟨b, q, q', hb, rfl, rfl⟩)
      · have h1 := (decay_of_pointsTo he).symm.trans (decay_of_pointsTo hf)
        have h2 := (decay_of_pointsTo he').symm.trans (decay_of_pointsTo hf')
        simp at h1 h2; subst h1; subst h2; exact h
      · cases he; exact absurd ‹_› hb
  · rw [decay_of_pointsTo he, decay_base _ hb']
    simp only [CType.removeAllCv]
    constructor
    · intro h; cases h
    · rintro (⟨f, f', hf, hf', h⟩ | ⟨b, q, q'', hb, rfl, h⟩)
      · cases hf'; exact absurd ‹_› hb'
      · cases he; exact absurd ‹_› hb
  · rw [decay_of_pointsTo he', decay_base _ hb]
    simp only [CType.removeAllCv]
    constructor
    · intro h; cases h
    · rintro (⟨f, f', hf, hf', h⟩ | ⟨b, q, q'', hb', h, rfl⟩)
      · cases hf; exact absurd ‹_› hb
      · cases he'; exact absurd ‹_› hb'
  · rw [decay_base _ hb, decay_base _ hb']
    simp only [CType.removeAllCv, CType.base.injEq, and_true]
    constructor
    · rintro rfl; exact .inr ⟨b, q, q', hb, ⟨rfl, rfl⟩, ⟨rfl, rfl⟩⟩
    · rintro (⟨f, f', hf, hf', h⟩ | ⟨c, r, r', hc, h1, h2⟩)
      · cases hf; exact absurd ‹_› hb
      · exact h1.1.trans h2.1.symm

theorem fullDecay_ref_free (t : CType) : t.fullDecay.fullDecay = t.fullDecay := by
  unfold CType.fullDecay
  rcases pointsTo_or t with ⟨e, he⟩ | ⟨b, q, hb, rfl⟩
  · rw [decay_of_pointsTo he]; simp [CType.removeAllCv, CType.decay, removeAllCv_idem]
  · rw [decay_base _ hb]; simp [CType.removeAllCv, CType.decay, hb]

/-! ### const patterns of array-free types -/

theorem Spec.SameModConst.arity {s t : CType} (h : SameModConst s t) : s.pointerArity = t.pointerArity := by
  induction h with
  | base => rfl
  | ptr _ _ _ _ ih => simp [CType.pointerArity, ih]
  | arr => rfl

/-- the outside-in rule on types and the inside-out rule on masks agree -/
theorem lvl_iff {s t : CType} (h : SameModConst s t) (hs : ArrayFree s) (k : Bool) :
    Lvl k s t ↔ QualOk s.pointerArity s.constBitset.testBit t.constBitset.testBit ∧
      (k = false → ∀ i, i ≤ s.pointerArity → s.constBitset.testBit i = t.constBitset.testBit i) := by
  induction h generalizing k with
  | arr n _ _ => cases hs
  | base b c c' v =>
    have e1 : (CType.base b ⟨c, v⟩).constBitset.testBit 0 = c := bit_top (.base b ⟨c, v⟩)
    have e2 : (CType.base b ⟨c', v⟩).constBitset.testBit 0 = c' := bit_top (.base b ⟨c', v⟩)
    simp only [CType.pointerArity, QualOk, Nat.le_zero]
    constructor
    · intro h
      cases h with
      | base _ _ _ h1 h2 =>
        refine ⟨?_, ?_⟩
        · rintro i rfl
          rw [e1, e2]
          exact ⟨h1, fun _ _ j hj hj' => by omega⟩
        · rintro hk i rfl
          rw [e1, e2]
          by_cases hc : c = c'
          · exact hc
          · have := h2 hc; rw [hk] at this; cases this
    · rintro ⟨h1, h2⟩
      refine .base b _ _ ?_ ?_
      · have := (h1 0 rfl).1; rw [e1, e2] at this; exact this
      · intro hc
        cases k with
        | true => rfl
        | false => have := h2 rfl 0 rfl; rw [e1, e2] at this; exact absurd this hc
  | @ptr c c' v s t h ih =>
    cases hs with
    | ptr _ hs =>
    have ih := ih hs (k && c')
    have ha := SameModConst.arity h
    have e1 : (CType.ptr ⟨c, v⟩ s).constBitset.testBit (s.pointerArity + 1) = c := bit_top (.ptr ⟨c, v⟩ s)
    have e2 : (CType.ptr ⟨c', v⟩ t).constBitset.testBit (s.pointerArity + 1) = c' := by
      rw [ha]; exact bit_top (.ptr ⟨c', v⟩ t)
    have b1 := fun i hi => bit_ptr ⟨c, v⟩ s i hi
    have b2 := fun i (hi : i ≤ s.pointerArity) => bit_ptr ⟨c', v⟩ t i (ha ▸ hi)
    simp only [CType.pointerArity]
    constructor
    · intro h
      cases h with
      | ptr _ _ h1 h2 h3 =>
        obtain ⟨h4, h5⟩ := ih.1 h3
        refine ⟨?_, ?_⟩
        · intro i hi
          by_cases hi' : i ≤ s.pointerArity
          · obtain ⟨h6, h7⟩ := h4 i hi'
            rw [b1 i hi', b2 i hi']
            refine ⟨h6, fun x y j hj hj' => ?_⟩
            by_cases hj'' : j ≤ s.pointerArity
            · rw [b2 j hj'']; exact h7 x y j hj hj''
            · have : j = s.pointerArity + 1 := by omega
              subst this
              rw [e2]
              cases hc : c' with
              | true => rfl
              | false =>
                have := h5 (by simp [hc]) i hi'
                rw [x, y] at this; cases this
          · have : i = s.pointerArity + 1 := by omega
            subst this
            rw [e1, e2]
            exact ⟨h1, fun _ _ j hj hj' => by omega⟩
        · intro hk i hi
          by_cases hi' : i ≤ s.pointerArity
          · rw [b1 i hi', b2 i hi']
            exact h5 (by simp [hk]) i hi'
          · have : i = s.pointerArity + 1 := by omega
            subst this
            rw [e1, e2]
            by_cases hc : c = c'
            · exact hc
            · have := h2 hc; rw [hk] at this; cases this
    · rintro ⟨h1, h2⟩
      refine .ptr _ _ ?_ ?_ (ih.2 ⟨?_, ?_⟩)
      · have := (h1 _ (Nat.le_refl _)).1; rw [e1, e2] at this; exact this
      · intro hc
        cases k with
        | true => rfl
        | false => have := h2 rfl _ (Nat.le_refl _); rw [e1, e2] at this; exact absurd this hc
      · exact (h1.mono (Nat.le_succ _)).congr b1 b2
      · intro hk i hi
        rw [← b1 i hi, ← b2 i hi]
        cases hk' : k with
        | false => exact h2 hk' i (by omega)
        | true =>
          have hc : c' = false := by simpa [hk'] using hk
          obtain ⟨h3, h4⟩ := h1 i (by omega)
          cases hf : (CType.ptr ⟨c, v⟩ s).constBitset.testBit i with
          | true => exact (h3 hf).symm
          | false =>
            cases ht : (CType.ptr ⟨c', v⟩ t).constBitset.testBit i with
            | false => rfl
            | true =>
              have := h4 hf ht (s.pointerArity + 1) (by omega) (Nat.le_refl _)
              rw [e2, hc] at this; cases this

theorem Spec.ArrayFree.isArray {t : CType} (h : ArrayFree t) : t.isArray = false := by cases h <;> rfl

theorem Spec.SameModConst.arrayFree {s t : CType} (h : SameModConst s t) (hs : ArrayFree s) : ArrayFree t := by
  induction h with
  | base => exact .base _ _
  | ptr _ _ _ _ ih => cases hs with | ptr _ hs => exact .ptr _ (ih hs)
  | arr => cases hs

theorem Spec.SameModConst.volatile {s t : CType} (h : SameModConst s t) : s.isVolatile = t.isVolatile := by
  induction h with
  | base => rfl
  | ptr => rfl
  | arr _ _ ih => exact ih

theorem isVolatile_iff (t : CType) : t.isVolatile = true ↔ IsVolatile t := by
  induction t with
  | base b q =>
    rcases q with ⟨c, v⟩
    constructor
    · intro h; simp [CType.isVolatile] at h; subst h; exact .base b c
    · intro h; cases h; rfl
  | ptr q t _ =>
    rcases q with ⟨c, v⟩
    constructor
    · intro h; simp [CType.isVolatile] at h; subst h; exact .ptr c t
    · intro h; cases h; rfl
  | arr n t ih =>
    constructor
    · intro h; exact .arr n (ih.1 h)
    · intro h; cases h with | arr _ h => exact ih.2 h


theorem Spec.Arrs.reach {t s : CType} {k : Nat} (h : Arrs t) (hr : Reach t k s) : s.isConst = t.isConst ∧ t.pointerArity = 0 := by
  induction hr with
  | here t => exact ⟨rfl, by cases h <;> rfl⟩
  | ptr => cases h
  | arr n _ ih => cases h with | arr _ h => exact ⟨(ih h).1, rfl⟩

/-- when pointers occur only outside arrays, the mask knows the constness at every level -/
theorem Spec.NoPtrInArray.reach {t s : CType} {k : Nat} (h : NoPtrInArray t) (hr : Reach t k s) :
    s.isConst = t.constBitset.testBit (t.pointerArity - k) := by
  induction h generalizing k with
  | arrs h =>
    obtain ⟨h1, h2⟩ := h.reach hr
    rw [h1, h2, Nat.zero_sub, ← bit_top, h2]
  | ptr q h ih =>
    cases hr with
    | here => exact (bit_top _).symm
    | ptr _ hr =>
      rw [ih hr, bit_ptr _ _ _ (by simp only [CType.pointerArity]; omega)]
      congr 1
      simp only [CType.pointerArity]; omega

end Rtti
