import Verif.Lemmas.Decay
/-
C03 (type level), C05, C06, C07, C08, C09, C10. The decay ids of C03 are in Props/Registry.
-/
set_option autoImplicit false
namespace Rtti.Props
open Rtti Spec

/-! Types for the concrete cases -/
namespace Ex
def noTraits : Traits := ⟨true, true, false, false, true, true, true, true, true, true, true⟩
def intB : Base := ⟨1, .integral, 4, noTraits⟩
def clsB : Base := ⟨2, .cls, 24, noTraits⟩
def nn : CV := ⟨false, false⟩
def kk : CV := ⟨true, false⟩
def int : CType := .base intB nn
def cint : CType := .base intB kk
def X : CType := .base clsB nn
def cX : CType := .base clsB kk
end Ex

/-! ### C03 -/

/-- C03: decaying twice is decaying once. -/
theorem C03_decay_fixed_point (t : CType) : t.fullDecay.fullDecay = t.fullDecay := fullDecay_ref_free t

/-- C03: two types have the same decay type exactly when they are the same type as values up to cv. -/
theorem C03_decay_identifies (s t : CType) : s.fullDecay = t.fullDecay ↔ SameDecay s t := fullDecay_iff s t

example : SameDecay (.arr 3 Ex.cint) (.ptr Ex.kk Ex.int) ∧ ¬ SameDecay Ex.int (.ptr Ex.nn Ex.int) := by
  refine ⟨.inl ⟨_, _, .arr _ _, .ptr _ _, .base _ _ _⟩, fun h => ?_⟩
  have := (fullDecay_iff _ _).2 h
  exact absurd this (by decide)

/-! ### C05 -/

/-- C05: the recorded arity is the number of outer pointers, and bit `k` of the recorded mask says
    whether the type at level `k` is const; higher bits are clear. -/
theorem C05_arity_and_mask (T : RType) (d : Nat) (hd : Depth T.t d) (h : d < 16) :
    (describe T).arity = d ∧
    (∀ k s, AtLevel T.t k s → ((describe T).constMask.testBit k = true ↔ IsConst s)) ∧
    (∀ k, k ≤ d → ∃ s, AtLevel T.t k s) ∧
    (∀ k, d < k → (describe T).constMask.testBit k = false) := by
  have hd' := (depth_iff _ _).1 hd
  subst hd'
  refine ⟨describe_arity T h, ?_, fun k hk => AtLevel.exists _ _ hk, ?_⟩
  · intro k s hs
    rw [describe_mask T h, hs.bit.2, isConst_iff]
  · intro k hk
    rw [describe_mask T h]
    exact Nat.testBit_lt_two_pow (Nat.lt_of_lt_of_le (constBitset_lt _) (Nat.pow_le_pow_right (by omega) hk))

theorem removeAllCv_arity (t : CType) : t.removeAllCv.pointerArity = t.pointerArity := by
  induction t <;> simp_all [CType.removeAllCv, CType.pointerArity]

theorem removeAllCv_mask (t : CType) (i : Nat) : t.removeAllCv.constBitsetHelper i = 0 := by
  have hc : ∀ t : CType, t.removeAllCv.isConst = false := by
    intro t; induction t <;> simp_all [CType.removeAllCv, CType.isConst]
  induction t generalizing i with
  | base => rfl
  | ptr q t ih => simp [CType.removeAllCv, CType.constBitsetHelper, ih]
  | arr n t _ => simp [CType.removeAllCv, CType.constBitsetHelper, CType.isConst, hc]

/-- C05: decaying clears the mask and keeps the arity (one more for arrays and functions). -/
theorem C05_decay (T : RType) : (describe ⟨.none, T.t.fullDecay⟩).constMask = 0 ∧
    (T.t.isArray = false → T.t.baseType.kind ≠ .func →
      (describe ⟨.none, T.t.fullDecay⟩).arity = (describe T).arity) ∧
    (∀ n t, T.t = .arr n t → (describe ⟨.none, T.t.fullDecay⟩).arity = (t.pointerArity + 1) % 65536) := by
  refine ⟨?_, ?_, ?_⟩
  · show CType.constBitset _ % 65536 = 0
    unfold CType.constBitset CType.fullDecay
    rw [removeAllCv_mask]
  · intro h1 h2
    show CType.pointerArity _ % 65536 = CType.pointerArity _ % 65536
    congr 1
    unfold CType.fullDecay
    rw [removeAllCv_arity]
    cases h : T.t with
    | base b q => rw [h] at h2; simp [CType.decay, CType.pointerArity, show b.kind ≠ .func from h2]
    | ptr q t => rfl
    | arr n t => rw [h] at h1; cases h1
  · intro n t h
    show CType.pointerArity _ % 65536 = _
    unfold CType.fullDecay
    rw [removeAllCv_arity, h]; rfl

example : (describe ⟨.lref, .ptr Ex.kk (.ptr Ex.nn Ex.cint)⟩).arity = 2 ∧
    (describe ⟨.lref, .ptr Ex.kk (.ptr Ex.nn Ex.cint)⟩).constMask = 5 := by decide

/-- Beyond 16 levels the top bits are lost: with 16 pointers the top-level const is not recorded. -/
theorem C05_limit : ∃ t : CType, Depth t 16 ∧ IsConst t ∧ (describe ⟨.none, t⟩).constMask.testBit 16 = false := by
  refine ⟨.ptr Ex.kk (.ptr Ex.nn (.ptr Ex.nn (.ptr Ex.nn (.ptr Ex.nn (.ptr Ex.nn (.ptr Ex.nn (.ptr Ex.nn
    (.ptr Ex.nn (.ptr Ex.nn (.ptr Ex.nn (.ptr Ex.nn (.ptr Ex.nn (.ptr Ex.nn (.ptr Ex.nn (.ptr Ex.nn Ex.int))))))))))))))),
    (depth_iff _ _).2 rfl, .ptr _ _, by decide⟩

/-! ### C06 -/

/-- C06 -/
theorem C06_predicates (T : RType) :
    -- what each predicate says
    ((describe T).isPointer = true ↔ ∃ q t, T.t = .ptr q t) ∧
    ((describe T).isArray = true ↔ ∃ n t, T.t = .arr n t) ∧
    ((describe T).isConst = true ↔ IsConst T.t) ∧
    ((describe T).isReference = true ↔ T.ref ≠ .none) ∧
    ((describe T).isReference = ((describe T).isLvalueReference ^^ (describe T).isRvalueReference)) ∧
    ((describe T).isClass = true ↔ T.t.baseType.kind = .cls ∧ (describe T).isPointer = false) ∧
    -- exclusions
    ¬ ((describe T).isPointer = true ∧ (describe T).isArray = true) ∧
    ¬ ((describe T).isClass = true ∧ (describe T).isClassPtr = true) ∧
    ¬ ((describe T).isClassPtr = true ∧ (describe T).isArray = true) ∧
    ¬ ((describe T).isClassPtr = true ∧ (describe T).isFunctionPtr = true) ∧
    ¬ ((describe T).isClassPtr = true ∧ (describe T).isVoidPtr = true) ∧
    -- implications
    ((describe T).isClassPtr = true → (describe T).isPointer = true ∧ (describe T).arity = 1) ∧
    ((describe T).isFunctionPtr = true → (describe T).isPointer = true ∧ (describe T).arity = 1) := by
  unfold Desc.isClassPtr Desc.isFunctionPtr Desc.isVoidPtr
  rw [show (describe T).has Flag.Pointer = (describe T).isPointer from rfl, describe_isClass, describe_isPointer,
    describe_isArray, describe_hasClass, describe_hasFunc, describe_hasVoid, describe_isConst,
    describe_isReference, describe_isLref, describe_isRref, isConst_iff]
  refine ⟨?_, ?_, Iff.rfl, by simp, by cases T.ref <;> rfl, by simp, ?_, ?_, ?_, ?_, ?_, ?_, ?_⟩
  · cases T.t <;> simp [CType.isPointer]
  · cases T.t <;> simp [CType.isArray]
  · cases T.t <;> simp [CType.isPointer, CType.isArray]
  · simp; intro _ h _ _; exact h
  · cases T.t <;> simp [CType.isPointer, CType.isArray]
  · simp; intro _ h _ _ h'; rw [h] at h'; cases h'
  · simp; intro _ h _ h'; rw [h] at h'; cases h'
  · simp; intro h _ h'; exact ⟨h', h⟩
  · simp; intro h _ h'; exact ⟨h', h⟩

theorem innermost_iff (t : CType) (b : Base) : Innermost t b ↔ t.baseType = b := by
  induction t with
  | base b' q => exact ⟨fun h => by cases h; rfl, fun h => by cases h; exact .base _ _⟩
  | ptr q t ih => exact ⟨fun h => by cases h with | ptr _ h => exact ih.1 h, fun h => .ptr q (ih.2 h)⟩
  | arr n t ih => exact ⟨fun h => by cases h with | arr _ h => exact ih.1 h, fun h => .arr n (ih.2 h)⟩

/-- C06: the predicates look at the number of outer pointers and at the innermost type, and at nothing between them (fewer than 65536 levels). -/
theorem C06_kinds (T : RType) (d : Nat) (b : Base) (hd : Depth T.t d) (h : d < 65536) (hb : Innermost T.t b) :
    ((describe T).isClass = true ↔ d = 0 ∧ b.kind = .cls) ∧
    ((describe T).isClassPtr = true ↔ d = 1 ∧ b.kind = .cls) ∧
    ((describe T).isFunctionPtr = true ↔ d = 1 ∧ b.kind = .func) ∧
    ((describe T).isVoidPtr = true ↔ 0 < d ∧ b.kind = .void) := by
  have hd' := (depth_iff _ _).1 hd
  have hb' := (innermost_iff _ _).1 hb
  have ha : (describe T).arity = d := by
    show T.t.pointerArity % 65536 = d
    rw [← hd', Nat.mod_eq_of_lt h]
  have hp : T.t.isPointer = true ↔ 0 < d := by
    subst hd'
    cases T.t <;> simp [CType.isPointer, CType.pointerArity]
  unfold Desc.isClassPtr Desc.isFunctionPtr Desc.isVoidPtr
  rw [show (describe T).has Flag.Pointer = (describe T).isPointer from rfl, describe_isClass, describe_isPointer,
    describe_hasClass, describe_hasFunc, describe_hasVoid, ha, hb']
  cases e : T.t.isPointer <;> rw [e] at hp <;> simp at hp ⊢ <;> omega

/-- an array of class pointers is a class, a pointer to an array of classes a class pointer -/
example : (describe ⟨.none, .arr 3 (.ptr Ex.nn Ex.X)⟩).isClass = true ∧ (describe ⟨.none, .ptr Ex.nn (.arr 3 Ex.X)⟩).isClassPtr = true ∧
    Depth (.ptr Ex.nn (.arr 3 Ex.X)) 1 ∧ Innermost (.ptr Ex.nn (.arr 3 Ex.X)) Ex.clsB :=
  ⟨by decide, by decide, .ptr _ (.arr _ _), .ptr _ (.arr _ (.base _ _))⟩

/-- C06: isPointer iff the arity is positive (fewer than 65536 levels) -/
theorem C06_pointer_arity (T : RType) (h : T.t.pointerArity < 65536) :
    (describe T).isPointer = true ↔ 0 < (describe T).arity := by
  rw [describe_isPointer, show (describe T).arity = T.t.pointerArity % 65536 from rfl, Nat.mod_eq_of_lt h]
  cases T.t <;> simp [CType.isPointer, CType.pointerArity]

/-- C06: apart from the reference flags a reference is described like the type it refers to. -/
theorem C06_reference_like_referred (r : Ref) (t : CType) :
    (describe ⟨r, t⟩).isPointer = (describe ⟨.none, t⟩).isPointer ∧
    (describe ⟨r, t⟩).isArray = (describe ⟨.none, t⟩).isArray ∧
    (describe ⟨r, t⟩).isConst = (describe ⟨.none, t⟩).isConst ∧
    (describe ⟨r, t⟩).isClass = (describe ⟨.none, t⟩).isClass ∧
    (describe ⟨r, t⟩).isClassPtr = (describe ⟨.none, t⟩).isClassPtr ∧
    (describe ⟨r, t⟩).isFunctionPtr = (describe ⟨.none, t⟩).isFunctionPtr ∧
    (describe ⟨r, t⟩).isVoidPtr = (describe ⟨.none, t⟩).isVoidPtr ∧
    (describe ⟨r, t⟩).size = (describe ⟨.none, t⟩).size ∧
    (describe ⟨r, t⟩).arity = (describe ⟨.none, t⟩).arity := by
  unfold Desc.isClassPtr Desc.isFunctionPtr Desc.isVoidPtr
  simp only [show ∀ T, (describe T).has Flag.Pointer = (describe T).isPointer from fun _ => rfl, describe_isClass,
    describe_isPointer, describe_isArray, describe_hasClass, describe_hasFunc, describe_hasVoid, describe_isConst]
  simp [describe]

/-- Surprises the predicates allow: an array of class pointers counts as a class, and a pointer to a
    pointer to a class is neither class nor class pointer. -/
theorem C06_surprises :
    (describe ⟨.none, .arr 3 (.ptr Ex.nn Ex.X)⟩).isClass = true ∧
    (describe ⟨.none, .ptr Ex.nn (.ptr Ex.nn Ex.X)⟩).isClass = false ∧
    (describe ⟨.none, .ptr Ex.nn (.ptr Ex.nn Ex.X)⟩).isClassPtr = false := by decide

example : (describe ⟨.lref, Ex.cX⟩).isClass = true ∧ (describe ⟨.rref, .ptr Ex.nn Ex.X⟩).isClassPtr = true ∧
    (describe ⟨.none, .arr 2 Ex.X⟩).isArray = true := by decide

/-! ### C07 -/

/-- C07: for types equal up to const and without arrays, below 16 pointer levels, `compatible` is
    exactly "may initialise". Missing: 16 levels and more (`C10_false`), and binding a non-lvalue to a
    volatile lvalue reference (`C07_volatile_lref_false`). -/
theorem C07_exactly_qualification_conversion_partial (S T : RType) (h : SameModConst S.t T.t) (ha : ArrayFree S.t)
    (d : Nat) (hd : Depth S.t d) (h16 : d < 16) (hv : T.ref = .lref → S.ref = .lref ∨ ¬ IsVolatile T.t) :
    (compatible (describe S) (describe T) = some true ↔ MayInit S T) ∧
    (compatible (describe S) (describe T) = some false ↔ ¬ MayInit S T) := by
  have hd' := (depth_iff _ _).1 hd
  subst hd'
  have ar := SameModConst.arity h
  obtain ⟨b, e, hb⟩ := compatible_iff S T h16 (by omega)
  have key : CompatOk S T ↔ MayInit S T := by
    have hS := ha.isArray
    have hT := (SameModConst.arrayFree h ha).isArray
    have eff : effArity S T = S.t.pointerArity := by simp [effArity, hS]
    have hbit : effBit S T = S.t.constBitset.testBit := by funext i; simp [effBit, hS]
    have hc := isConst_iff T.t
    constructor
    · rintro ⟨h1, h2, _, _, h5⟩
      rw [eff, hbit] at h5
      unfold MayInit
      cases hr : T.ref with
      | none =>
        simp only [hr, true_and, if_true] at h5 ⊢
        generalize S.t = s at *
        generalize T.t = t at *
        cases h with
        | base b c c' v => exact .base b _ _
        | arr => cases ha
        | @ptr c c' v s t h =>
          cases ha with
          | ptr _ ha =>
          refine .ptr _ _ ((lvl_iff h ha true).2 ⟨?_, by simp⟩)
          rcases h5 with h5 | h5
          · simp [CType.pointerArity] at h5
          · simp only [CType.pointerArity, Nat.add_sub_cancel] at h5
            exact h5.congr (fun i hi => bit_ptr _ _ _ hi) (fun i hi => bit_ptr _ _ _ (SameModConst.arity h ▸ hi))
      | lref =>
        simp only [hr] at h5 ⊢
        refine ⟨(lvl_iff h ha true).2 ⟨by simpa using h5, by simp⟩, ?_⟩
        rcases h1 hr with h | h
        · exact .inl h
        · exact (hv hr).imp_right fun hv => ⟨hc.1 h, hv⟩
      | rref =>
        simp only [hr] at h5 ⊢
        exact ⟨(lvl_iff h ha true).2 ⟨by simpa using h5, by simp⟩, h2 hr⟩
    · intro hm
      unfold MayInit at hm
      refine ⟨?_, ?_, by simp [hS], by rw [eff, ar], ?_⟩
      · intro hr; simp only [hr] at hm
        rcases hm.2 with h | h
        · exact .inl h
        · exact .inr (hc.2 h.1)
      · intro hr; simp only [hr] at hm; exact hm.2
      · rw [eff, hbit]
        cases hr : T.ref with
        | none =>
          simp only [hr, true_and, if_true] at hm ⊢
          generalize S.t = s at *
          generalize T.t = t at *
          cases hm with
          | base => left; rfl
          | ptr q q' hm =>
            cases h with
            | @ptr c c' v s t h =>
            cases ha with
            | ptr _ ha =>
            right
            simp only [CType.pointerArity, Nat.add_sub_cancel]
            exact ((lvl_iff h ha true).1 hm).1.congr (fun i hi => (bit_ptr _ _ _ hi).symm)
              (fun i hi => (bit_ptr _ _ _ (SameModConst.arity h ▸ hi)).symm)
        | lref => simp only [hr] at hm; right; simpa using ((lvl_iff h ha true).1 hm.1).1
        | rref => simp only [hr] at hm; right; simpa using ((lvl_iff h ha true).1 hm.1).1
  rw [e]
  cases b with
  | true => simp at hb; simp [key.1 hb]
  | false => simp at hb; simp; exact fun h => hb (key.2 h)

/-- The hypothesis on volatile is needed: an rvalue is declared compatible with
    `const volatile X &`, to which C++ does not bind it. -/
theorem C07_volatile_lref_false : ∃ S T : RType, SameModConst S.t T.t ∧ ArrayFree S.t ∧ Depth S.t 0 ∧
    compatible (describe S) (describe T) = some true ∧ ¬ MayInit S T := by
  refine ⟨⟨.none, .base Ex.clsB ⟨true, true⟩⟩, ⟨.lref, .base Ex.clsB ⟨true, true⟩⟩, .base _ _ _ _, .base _ _,
    .base _ _, by decide, ?_⟩
  rintro ⟨_, h | h⟩
  · cases h
  · exact h.2 (.base _ _)

/-- Outside the property (types that differ in volatile): volatile is not looked at. -/
theorem C07_volatile_dropped : compatible (describe ⟨.none, .ptr Ex.nn (.base Ex.intB ⟨false, true⟩)⟩)
    (describe ⟨.none, .ptr Ex.nn Ex.int⟩) = some true := by decide

example : -- `int **` to `int const **` is refused, to `int const * const *` accepted
    compatible (describe ⟨.none, .ptr Ex.nn (.ptr Ex.nn Ex.int)⟩)
      (describe ⟨.none, .ptr Ex.nn (.ptr Ex.nn Ex.cint)⟩) = some false ∧
    compatible (describe ⟨.none, .ptr Ex.nn (.ptr Ex.nn Ex.int)⟩)
      (describe ⟨.none, .ptr Ex.nn (.ptr Ex.kk Ex.cint)⟩) = some true ∧
    MayInit ⟨.none, .ptr Ex.nn (.ptr Ex.nn Ex.int)⟩ ⟨.none, .ptr Ex.nn (.ptr Ex.kk Ex.cint)⟩ :=
  ⟨by decide, by decide, .ptr _ _ (.ptr _ _ (by decide) (by decide) (.base _ _ _ (by decide) (by decide)))⟩

/-! ### C09 -/

/-- C09: every type is compatible with itself, at any depth. -/
theorem C09_reflexive (T : RType) : compatible (describe T) (describe T) = some true := by
  unfold compatible
  rw [describe_isLref, describe_isConst, describe_isRref, describe_isArray, describe_isPointer]
  have h1 : (!decide (T.ref = .lref) && decide (T.ref = .lref) && !T.t.isConst) = false := by
    cases decide (T.ref = .lref) <;> simp
  have h2 : (decide (T.ref = .lref) && decide (T.ref = .rref)) = false := by cases T.ref <;> simp
  have h3 : (T.t.isArray && T.t.isPointer) = false := by cases T.t <;> simp [CType.isArray, CType.isPointer]
  simp only [h1, h2, h3, Bool.false_eq_true, if_false, Nat.lt_irrefl, decide_false, Bool.and_false, bne_self_eq_false]
  unfold compatibleMasks
  split
  · rfl
  · simp


/-- same decay, one an array and the other not: the other is a pointer -/
theorem array_or_pointer {s t : CType} (h : SameDecay s t) (hs : s.isArray = true) (ht : t.isArray = false)
    (wf : NoFuncArray s) : t.isPointer = true := by
  cases s with
  | base => cases hs
  | ptr => cases hs
  | arr n s =>
    rcases h with ⟨e, e', h1, h2, h3⟩ | ⟨b, q, q', _, h1, _⟩
    · cases h2 with
      | ptr => rfl
      | arr => cases ht
      | func b q hb =>
        cases h1
        cases h3
        exact absurd hb (wf _ _ _ rfl)
    · cases h1

theorem SameDecay.symm {s t : CType} (h : SameDecay s t) : SameDecay t s :=
  (fullDecay_iff _ _).1 ((fullDecay_iff _ _).2 h).symm

theorem arity_pos {t : CType} (h : t.isPointer = true) : 0 < t.pointerArity := by
  cases t <;> simp_all [CType.isPointer, CType.pointerArity]

theorem arity_zero {t : CType} (h : t.isPointer = false) : t.pointerArity = 0 := by
  cases t <;> simp_all [CType.isPointer, CType.pointerArity]

theorem not_ptr_of_arr {t : CType} (h : t.isArray = true) : t.isPointer = false := by
  cases t <;> simp_all [CType.isPointer, CType.isArray]

theorem compat_trans (A B C : RType) (hAB : SameDecay A.t B.t) (hBC : SameDecay B.t C.t)
    (wa : NoFuncArray A.t) (wb : NoFuncArray B.t) (wc : NoFuncArray C.t)
    (hyp : B.ref ≠ .none ∨ (C.ref = .none ∧ ∀ n t, B.t ≠ .arr n t)) (ab : CompatOk A B) (bc : CompatOk B C) : CompatOk A C := by
  have hyp' : B.ref = .none → C.ref = .none ∧ B.t.isArray = false := by
    intro h
    rcases hyp with h' | ⟨h1, h2⟩
    · exact absurd h h'
    · refine ⟨h1, ?_⟩
      cases hb : B.t with
      | arr n t => exact absurd hb (h2 n t)
      | _ => rfl
  have hAC : SameDecay A.t C.t := (fullDecay_iff _ _).1 (((fullDecay_iff _ _).2 hAB).trans ((fullDecay_iff _ _).2 hBC))
  have barr : B.t.isArray = true → A.t.isArray = true := by
    intro h
    cases ha : A.t.isArray with
    | true => rfl
    | false =>
      have hp := array_or_pointer (SameDecay.symm hAB) h ha wb
      have := ab.arity
      simp only [effArity, ha, Bool.false_and, Bool.false_eq_true, if_false, arity_arr h] at this
      have := arity_pos hp
      omega
  have carr : C.t.isArray = true → B.t.isArray = true := by
    intro h
    cases ha : B.t.isArray with
    | true => rfl
    | false =>
      have hp := array_or_pointer (SameDecay.symm hBC) h ha wc
      have := bc.arity
      simp only [effArity, ha, Bool.false_and, Bool.false_eq_true, if_false, arity_arr h] at this
      have := arity_pos hp
      omega
  have ear : effArity A C = C.t.pointerArity := by
    cases ha : A.t.isArray with
    | false =>
      have hb : B.t.isArray = false := by
        cases hb : B.t.isArray with
        | false => rfl
        | true => rw [barr hb] at ha; cases ha
      have h3 := ab.arity
      have h4 := bc.arity
      simp only [effArity, ha, hb, Bool.false_and, Bool.false_eq_true, if_false] at h3 h4 ⊢
      omega
    | true =>
      have a0 := arity_arr ha
      cases hc : C.t.isPointer with
      | false => simp [effArity, ha, hc, a0, arity_zero hc]
      | true =>
        simp only [effArity, ha, hc, Bool.and_self, if_true, a0]
        have h3 := ab.arity
        have h4 := bc.arity
        cases hb : B.t.isArray with
        | true =>
          simp only [effArity, hb, hc, Bool.and_self, if_true, arity_arr hb] at h4
          exact h4
        | false =>
          have hp := array_or_pointer hAB ha hb wa
          simp only [effArity, ha, hb, hp, Bool.and_self, Bool.false_and, Bool.false_eq_true, if_true, if_false,
            a0] at h3 h4
          omega
  refine ⟨?_, ?_, ?_, ear, ?_⟩
  · intro hr
    rcases bc.lref hr with h | h
    · rcases ab.lref h with h' | h'
      · exact .inl h'
      · right
        have hq : QualOk (effArity B C) (effBit B C) C.t.constBitset.testBit := by
          rcases bc.masks with ⟨h3, _⟩ | h3
          · rw [hr] at h3; cases h3
          · simpa [hr] using h3
        rw [← bit_top, ← bc.arity]
        refine (hq _ (Nat.le_refl _)).1 ?_
        unfold effBit
        cases hp : (B.t.isArray && C.t.isPointer) with
        | false =>
          have : effArity B C = B.t.pointerArity := by simp only [effArity, hp]; rfl
          rw [this, bit_top, h']; rfl
        | true =>
          simp only [Bool.and_eq_true] at hp
          have : C.t.isArray = false := by
            cases hc : C.t.isArray with
            | false => rfl
            | true => rw [not_ptr_of_arr hc] at hp; cases hp.2
          simp [hp.1, this, hr]
    · exact .inr h
  · intro hr
    have h3 := bc.rref hr
    cases hB : B.ref with
    | none => have := (hyp' hB).1; rw [hr] at this; cases this
    | lref => exact absurd hB h3
    | rref => exact ab.rref hB
  · intro ha hc
    have hb := carr hc
    exact Nat.le_trans (bc.size hb hc) (ab.size ha hb)
  · rw [ear]
    by_cases hz : C.ref = .none ∧ C.t.pointerArity = 0
    · exact .inl hz
    right
    have hq := bc.masks
    rw [bc.arity] at hq
    replace hq := hq.resolve_left hz
    cases hb : B.t.isArray with
    | false =>
      have hc : C.t.isArray = false := by
        cases hc : C.t.isArray with
        | false => rfl
        | true => rw [carr hc] at hb; cases hb
      have aBC : B.t.pointerArity = C.t.pointerArity := by
        have := bc.arity
        simpa only [effArity, hb, Bool.false_and, Bool.false_eq_true, if_false] using this
      have hq' := ab.masks
      rw [ab.arity, aBC] at hq'
      replace hq' := hq'.resolve_left (fun h => hz ⟨(hyp' h.1).1, h.2⟩)
      have hle : (if C.ref = .none then C.t.pointerArity - 1 else C.t.pointerArity) ≤
          (if B.ref = .none then C.t.pointerArity - 1 else C.t.pointerArity) := by
        by_cases h : B.ref = .none
        · simp [h, (hyp' h).1]
        · simp only [h, if_false]; split <;> omega
      refine QualOk.trans ((hq'.mono hle).congr ?_ (fun _ _ => rfl)) (hq.congr ?_ (fun _ _ => rfl))
      · intro i hi
        unfold effBit
        rw [ab.arity, ear, aBC, hb, hc]
        congr 1
        by_cases hr : C.ref = .none
        · simp only [hr, if_true] at hi
          have : C.t.pointerArity ≠ 0 := fun h => hz ⟨hr, h⟩
          have hne : i ≠ C.t.pointerArity := by omega
          simp [hne]
        · have : B.ref ≠ .none := fun h => hr (hyp' h).1
          simp [hr, this]
      · intro i hi
        simp [effBit, hb]
    | true =>
      have ha := barr hb
      have hBr : B.ref ≠ .none := fun h => by rw [(hyp' h).2] at hb; cases hb
      have hq' : QualOk 0 A.t.constBitset.testBit B.t.constBitset.testBit := by
        have h3 := ab.masks
        rw [ab.arity, arity_arr hb] at h3
        replace h3 := h3.resolve_left (fun h => hBr h.1)
        simp only [hBr, if_false] at h3
        exact h3.congr (fun i _ => by simp [effBit, hb]) (fun _ _ => rfl)
      cases hc : C.t.isArray with
      | true =>
        have c0 := arity_arr hc
        rw [c0] at hq ⊢
        have hn : (if C.ref = .none then 0 - 1 else 0) = 0 := by split <;> rfl
        rw [hn] at hq ⊢
        have : QualOk 0 B.t.constBitset.testBit C.t.constBitset.testBit :=
          hq.congr (fun i _ => by simp [effBit, hc]) (fun _ _ => rfl)
        exact (hq'.trans this).congr (fun i _ => by simp [effBit, hc]) (fun _ _ => rfl)
      | false =>
        have hp := array_or_pointer hBC hb hc wb
        have c1 : C.t.pointerArity = 1 := by
          have := bc.arity
          simp only [effArity, hb, hp, Bool.and_self, if_true, arity_arr hb] at this
          omega
        have eB : effArity B C = 1 := by rw [bc.arity, c1]
        rw [c1] at hq ear ⊢
        have b0 : effBit B C 0 = B.t.constBitset.testBit 0 := by simp [effBit, eB]
        have a0 : effBit A C 0 = A.t.constBitset.testBit 0 := by simp [effBit, ear]
        by_cases hr : C.ref = .none
        · simp only [hr, if_true] at hq ⊢
          intro i hi
          have : i = 0 := by omega
          subst this
          refine ⟨fun h => ?_, fun _ _ j hj hj' => by omega⟩
          rw [a0] at h
          refine (hq 0 hi).1 ?_
          rw [b0]
          exact (hq' 0 (Nat.le_refl _)).1 h
        · simp only [hr, if_false] at hq ⊢
          have t1 : C.t.constBitset.testBit 1 = true := by
            refine (hq 1 (Nat.le_refl _)).1 ?_
            simp [effBit, eB, hb, hc, hr]
          intro i hi
          have hi' : i = 0 ∨ i = 1 := by omega
          rcases hi' with rfl | rfl
          · refine ⟨fun h => ?_, fun _ _ j hj hj' => by have : j = 1 := by omega
                                                        subst this; exact t1⟩
            rw [a0] at h
            refine (hq 0 hi).1 ?_
            rw [b0]
            exact (hq' 0 (Nat.le_refl _)).1 h
          · exact ⟨fun _ => t1, fun _ _ j hj hj' => by omega⟩

/-- C09: compatibility is transitive (for types of one decay, below 16 levels) when the middle type is a
    reference, or the last one is a value and the middle one is not an array value. -/
theorem C09_transitive (A B C : RType) (hAB : SameDecay A.t B.t) (hBC : SameDecay B.t C.t)
    (wa : NoFuncArray A.t) (wb : NoFuncArray B.t) (wc : NoFuncArray C.t)
    (dA : A.t.pointerArity < 16) (dB : B.t.pointerArity < 16) (dC : C.t.pointerArity < 16)
    (hyp : B.ref ≠ .none ∨ (C.ref = .none ∧ ∀ n t, B.t ≠ .arr n t))
    (h1 : compatible (describe A) (describe B) = some true)
    (h2 : compatible (describe B) (describe C) = some true) :
    compatible (describe A) (describe C) = some true := by
  obtain ⟨b, e, hb⟩ := compatible_iff A B dA dB
  rw [h1] at e; cases e
  have ab := hb.1 rfl
  obtain ⟨b, e, hb⟩ := compatible_iff B C dB dC
  rw [h2] at e; cases e
  have bc := hb.1 rfl
  obtain ⟨b, e, hb⟩ := compatible_iff A C dA dC
  rw [e, hb.2 (compat_trans A B C hAB hBC wa wb wc hyp ab bc)]

/-- C09: it is not transitive through a copy. -/
theorem C09_not_transitive_through_values :
    compatible (describe ⟨.lref, Ex.cX⟩) (describe ⟨.none, Ex.X⟩) = some true ∧
    compatible (describe ⟨.none, Ex.X⟩) (describe ⟨.rref, Ex.X⟩) = some true ∧
    compatible (describe ⟨.lref, Ex.cX⟩) (describe ⟨.rref, Ex.X⟩) = some false := by decide

example : compatible (describe ⟨.lref, .arr 5 Ex.int⟩) (describe ⟨.lref, .arr 3 Ex.cint⟩) = some true ∧
    compatible (describe ⟨.lref, .arr 3 Ex.cint⟩) (describe ⟨.none, .ptr Ex.nn Ex.cint⟩) = some true := by decide

/-! ### C08 -/

/-- C08 is false: an array of pointers to const is compatible with an array of pointers to non-const. -/
theorem C08_false : ∃ S T : RType, SameDecay S.t T.t ∧ T.ref ≠ .none ∧
    compatible (describe S) (describe T) = some true ∧ ¬ KeepsConst S T := by
  refine ⟨⟨.lref, .arr 3 (.ptr Ex.nn Ex.cint)⟩, ⟨.lref, .arr 3 (.ptr Ex.nn Ex.int)⟩,
    .inl ⟨_, _, .arr _ _, .arr _ _, .ptr _ _ (.base _ _ _)⟩, by decide, by decide, fun h => ?_⟩
  have := h 2 Ex.cint Ex.int (.arr _ (.ptr _ (.here _))) (.arr _ (.ptr _ (.here _))) (by decide) (.base _ _)
  cases this

/-- C08, what holds: when arrays are only innermost (no pointer inside an array), nothing const through
    the source is writable through the target. Missing: arrays of pointers (`C08_false`). -/
theorem C08_partial (S T : RType) (hS : NoPtrInArray S.t) (hT : NoPtrInArray T.t)
    (dS : S.t.pointerArity < 16) (dT : T.t.pointerArity < 16)
    (ht : T.ref ≠ .none ∨ ∃ q t, T.t = .ptr q t)
    (h : compatible (describe S) (describe T) = some true) : KeepsConst S T := by
  obtain ⟨b, e, hb⟩ := compatible_iff S T dS dT
  rw [h] at e; cases e
  have c := hb.1 rfl
  intro k s t hs htt hk hc
  rw [← isConst_iff] at hc ⊢
  rw [hS.reach hs] at hc
  rw [hT.reach htt]
  have har := c.arity
  have hq : QualOk (if T.ref = .none then effArity S T - 1 else effArity S T) (effBit S T)
      T.t.constBitset.testBit := by
    refine c.masks.resolve_left ?_
    rintro ⟨h1, h2⟩
    rcases ht with h3 | ⟨q, t, h3⟩
    · exact h3 h1
    · rw [h2, h3] at har; simp [CType.pointerArity] at har
  cases hp : (S.t.isArray && T.t.isPointer) with
  | true =>
    simp only [Bool.and_eq_true] at hp
    have a0 := arity_arr hp.1
    have e1 : effArity S T = 1 := by simp [effArity, hp.1, hp.2, a0]
    rw [e1] at har hq
    rw [a0, Nat.zero_sub] at hc
    rw [← har]
    cases k with
    | zero =>
      have hr := hk rfl
      rw [if_neg hr] at hq
      refine (hq 1 (Nat.le_refl _)).1 ?_
      have : T.t.isArray = false := by
        cases hta : T.t.isArray with
        | false => rfl
        | true => rw [not_ptr_of_arr hta] at hp; cases hp.2
      simp [effBit, e1, hp.1, this, hr]
    | succ k =>
      have : 1 - (k + 1) = 0 := by omega
      rw [this]
      exact (hq 0 (Nat.zero_le _)).1 (by simp [effBit, hc])
  | false =>
    have e1 : effArity S T = S.t.pointerArity := by simp only [effArity, hp]; rfl
    rw [e1] at har hq
    rw [← har]
    refine (hq _ ?_).1 (by simp [effBit, hc])
    cases k with
    | zero => simp [hk rfl]
    | succ k => split <;> omega

example : NoPtrInArray (.ptr Ex.nn (.arr 3 Ex.cint)) ∧
    compatible (describe ⟨.lref, .arr 4 Ex.cint⟩) (describe ⟨.none, .ptr Ex.nn Ex.cint⟩) = some true :=
  ⟨.ptr _ (.arrs (.arr _ (.base _ _))), by decide⟩

/-- C08: an array is never compatible with a larger one. -/
theorem C08_array_never_grows (S T : RType) (n m : Nat) (s t : CType) (hS : S.t = .arr n s) (hT : T.t = .arr m t)
    (h : compatible (describe S) (describe T) = some true) : T.t.sizeOf ≤ S.t.sizeOf := by
  obtain ⟨b, e, hb⟩ := compatible_iff S T (by simp [hS, CType.pointerArity]) (by simp [hT, CType.pointerArity])
  rw [h] at e; cases e
  exact (hb.1 rfl).size (by simp [hS, CType.isArray]) (by simp [hT, CType.isArray])

/-! ### C10 -/

/-- `n` pointers, each with qualifier `q`, to `t` -/
def ptrs (q : CV) : Nat → CType → CType
  | 0, t => t
  | n + 1, t => .ptr q (ptrs q n t)

/-- C10 is false: comparing two references to 16-fold pointers calls `bitset<16>::test(16)`, which
    throws out of a `noexcept` function. -/
theorem C10_false : ∃ S T : RType, Depth S.t 16 ∧ Depth T.t 16 ∧ SameDecay S.t T.t ∧
    compatible (describe S) (describe T) = none := by
  refine ⟨⟨.none, ptrs Ex.nn 16 Ex.int⟩, ⟨.lref, ptrs Ex.kk 16 Ex.cint⟩, (depth_iff _ _).2 rfl, (depth_iff _ _).2 rfl,
    (fullDecay_iff _ _).1 (by decide), by decide⟩

/-- C10, what holds: below 16 pointer levels a Boolean is returned. -/
theorem C10_partial (S T : RType) (m n : Nat) (hS : Depth S.t m) (hT : Depth T.t n) (hm : m < 16) (hn : n < 16) :
    ∃ b, compatible (describe S) (describe T) = some b := by
  rw [depth_iff] at hS hT
  obtain ⟨b, e, _⟩ := compatible_iff S T (by omega) (by omega)
  exact ⟨b, e⟩

end Rtti.Props
