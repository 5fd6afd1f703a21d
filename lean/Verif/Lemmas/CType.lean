import Verif.Spec.CType
set_option autoImplicit false
namespace Rtti
open Spec

/-! ### flags -/

theorem and_one_shift (x k : Nat) : (x &&& (1 <<< k) == 1 <<< k) = x.testBit k := by
  rw [Bool.eq_iff_iff, beq_iff_eq]
  constructor
  · intro h
    have := congrArg (Nat.testBit · k) h
    simpa using this
  · intro h
    apply Nat.eq_of_testBit_eq
    intro i
    simp only [Nat.testBit_and, Nat.one_shiftLeft, Nat.testBit_two_pow]
    by_cases hi : k = i
    · subst hi; simp [h]
    · simp [hi]

theorem and_one_shift_zero (x k : Nat) : (x &&& (1 <<< k) == 0) = !x.testBit k := by
  rw [Bool.eq_iff_iff, beq_iff_eq, Bool.not_eq_true']
  constructor
  · intro h
    have := congrArg (Nat.testBit · k) h
    simpa using this
  · intro h
    apply Nat.eq_of_testBit_eq
    intro i
    simp only [Nat.testBit_and, Nat.one_shiftLeft, Nat.testBit_two_pow]
    by_cases hi : k = i
    · subst hi; simp [h]
    · simp [hi]

theorem testBit_flagIf (b : Bool) (j k : Nat) : (flagIf b (1 <<< j)).testBit k = (b && decide (j = k)) := by
  unfold flagIf
  cases b <;> simp [Nat.one_shiftLeft, Nat.testBit_two_pow]

theorem fb_Const (b : Bool) (k : Nat) : (flagIf b Flag.Const).testBit k = (b && decide (0 = k)) := testBit_flagIf b 0 k
theorem fb_Pointer (b : Bool) (k : Nat) : (flagIf b Flag.Pointer).testBit k = (b && decide (1 = k)) := testBit_flagIf b 1 k
theorem fb_MemberPointer (b : Bool) (k : Nat) : (flagIf b Flag.MemberPointer).testBit k = (b && decide (2 = k)) := testBit_flagIf b 2 k
theorem fb_LvalueReference (b : Bool) (k : Nat) : (flagIf b Flag.LvalueReference).testBit k = (b && decide (3 = k)) := testBit_flagIf b 3 k
theorem fb_RvalueReference (b : Bool) (k : Nat) : (flagIf b Flag.RvalueReference).testBit k = (b && decide (4 = k)) := testBit_flagIf b 4 k
theorem fb_Array (b : Bool) (k : Nat) : (flagIf b Flag.Array).testBit k = (b && decide (5 = k)) := testBit_flagIf b 5 k
theorem fb_Void (b : Bool) (k : Nat) : (flagIf b Flag.Void).testBit k = (b && decide (6 = k)) := testBit_flagIf b 6 k
theorem fb_Integral (b : Bool) (k : Nat) : (flagIf b Flag.Integral).testBit k = (b && decide (7 = k)) := testBit_flagIf b 7 k
theorem fb_FloatPoint (b : Bool) (k : Nat) : (flagIf b Flag.FloatPoint).testBit k = (b && decide (8 = k)) := testBit_flagIf b 8 k
theorem fb_Enum (b : Bool) (k : Nat) : (flagIf b Flag.Enum).testBit k = (b && decide (9 = k)) := testBit_flagIf b 9 k
theorem fb_Function (b : Bool) (k : Nat) : (flagIf b Flag.Function).testBit k = (b && decide (10 = k)) := testBit_flagIf b 10 k
theorem fb_Union (b : Bool) (k : Nat) : (flagIf b Flag.Union).testBit k = (b && decide (11 = k)) := testBit_flagIf b 11 k
theorem fb_Class (b : Bool) (k : Nat) : (flagIf b Flag.Class).testBit k = (b && decide (12 = k)) := testBit_flagIf b 12 k
theorem fb_StandardLayout (b : Bool) (k : Nat) : (flagIf b Flag.StandardLayout).testBit k = (b && decide (13 = k)) := testBit_flagIf b 13 k
theorem fb_Trivial (b : Bool) (k : Nat) : (flagIf b Flag.Trivial).testBit k = (b && decide (14 = k)) := testBit_flagIf b 14 k
theorem fb_Abstract (b : Bool) (k : Nat) : (flagIf b Flag.Abstract).testBit k = (b && decide (15 = k)) := testBit_flagIf b 15 k
theorem fb_Polymorphic (b : Bool) (k : Nat) : (flagIf b Flag.Polymorphic).testBit k = (b && decide (16 = k)) := testBit_flagIf b 16 k
theorem fb_DefaultConstructible (b : Bool) (k : Nat) : (flagIf b Flag.DefaultConstructible).testBit k = (b && decide (17 = k)) := testBit_flagIf b 17 k
theorem fb_CopyConstructible (b : Bool) (k : Nat) : (flagIf b Flag.CopyConstructible).testBit k = (b && decide (18 = k)) := testBit_flagIf b 18 k
theorem fb_CopyAssignable (b : Bool) (k : Nat) : (flagIf b Flag.CopyAssignable).testBit k = (b && decide (19 = k)) := testBit_flagIf b 19 k
theorem fb_MoveConstructible (b : Bool) (k : Nat) : (flagIf b Flag.MoveConstructible).testBit k = (b && decide (20 = k)) := testBit_flagIf b 20 k
theorem fb_MoveAssignable (b : Bool) (k : Nat) : (flagIf b Flag.MoveAssignable).testBit k = (b && decide (21 = k)) := testBit_flagIf b 21 k
theorem fb_Destructible (b : Bool) (k : Nat) : (flagIf b Flag.Destructible).testBit k = (b && decide (22 = k)) := testBit_flagIf b 22 k
theorem fb_EQ_Comparable (b : Bool) (k : Nat) : (flagIf b Flag.EQ_Comparable).testBit k = (b && decide (23 = k)) := testBit_flagIf b 23 k

/-- all flag bits of a type -/
theorem testBit_typeFlags (T : RType) (k : Nat) : (typeFlags T).testBit k = (
    (T.t.isConst && decide (0 = k))
    || (T.t.isPointer && decide (1 = k))
    || ((match T.t with | .base b _ => decide (b.kind = .memberPtr) | _ => false) && decide (2 = k))
    || (decide (T.ref = .lref) && decide (3 = k))
    || (decide (T.ref = .rref) && decide (4 = k))
    || (T.t.removePointer.isArray && decide (5 = k))
    || (decide (T.t.baseType.kind = .void) && decide (6 = k))
    || (decide (T.t.baseType.kind = .integral) && decide (7 = k))
    || (decide (T.t.baseType.kind = .floating) && decide (8 = k))
    || (decide (T.t.baseType.kind = .enum) && decide (9 = k))
    || (decide (T.t.baseType.kind = .func) && decide (10 = k))
    || (decide (T.t.baseType.kind = .union) && decide (11 = k))
    || (decide (T.t.baseType.kind = .cls) && decide (12 = k))
    || (T.t.baseType.traits.standardLayout && decide (13 = k))
    || (T.t.baseType.traits.trivial && decide (14 = k))
    || (T.t.baseType.traits.abstract && decide (15 = k))
    || (T.t.baseType.traits.polymorphic && decide (16 = k))
    || (T.t.baseType.traits.defaultC && decide (17 = k))
    || (T.t.baseType.traits.copyC && decide (18 = k))
    || (T.t.baseType.traits.copyA && decide (19 = k))
    || (T.t.baseType.traits.moveC && decide (20 = k))
    || (T.t.baseType.traits.moveA && decide (21 = k))
    || (T.t.baseType.traits.destructible && decide (22 = k))
    || (T.t.hasEq && decide (23 = k))) := by
  simp only [typeFlags, Nat.testBit_or, fb_Const, fb_Pointer, fb_MemberPointer, fb_LvalueReference, fb_RvalueReference, fb_Array, fb_Void, fb_Integral, fb_FloatPoint, fb_Enum, fb_Function, fb_Union, fb_Class, fb_StandardLayout, fb_Trivial, fb_Abstract, fb_Polymorphic, fb_DefaultConstructible, fb_CopyConstructible, fb_CopyAssignable, fb_MoveConstructible, fb_MoveAssignable, fb_Destructible, fb_EQ_Comparable]
  rfl

namespace Desc

theorem has_flag (d : Desc) (k : Nat) : d.has (1 <<< k) = d.flags.testBit k := and_one_shift _ _
theorem hasNot_flag (d : Desc) (k : Nat) : d.hasNot (1 <<< k) = !d.flags.testBit k := and_one_shift_zero _ _

end Desc

theorem flag_const (T : RType) : (typeFlags T).testBit 0 = T.t.isConst :=
  (testBit_typeFlags T 0).trans (by simp)
theorem flag_ptr (T : RType) : (typeFlags T).testBit 1 = T.t.isPointer :=
  (testBit_typeFlags T 1).trans (by simp)
theorem flag_lref (T : RType) : (typeFlags T).testBit 3 = decide (T.ref = .lref) :=
  (testBit_typeFlags T 3).trans (by simp)
theorem flag_rref (T : RType) : (typeFlags T).testBit 4 = decide (T.ref = .rref) :=
  (testBit_typeFlags T 4).trans (by simp)
theorem flag_arr (T : RType) : (typeFlags T).testBit 5 = T.t.removePointer.isArray :=
  (testBit_typeFlags T 5).trans (by simp)
theorem flag_void (T : RType) : (typeFlags T).testBit 6 = decide (T.t.baseType.kind = .void) :=
  (testBit_typeFlags T 6).trans (by simp)
theorem flag_func (T : RType) : (typeFlags T).testBit 10 = decide (T.t.baseType.kind = .func) :=
  (testBit_typeFlags T 10).trans (by simp)
theorem flag_cls (T : RType) : (typeFlags T).testBit 12 = decide (T.t.baseType.kind = .cls) :=
  (testBit_typeFlags T 12).trans (by simp)

theorem describe_isConst (T : RType) : (describe T).isConst = T.t.isConst :=
  (Desc.has_flag _ 0).trans (flag_const T)
theorem describe_isPointer (T : RType) : (describe T).isPointer = T.t.isPointer :=
  (Desc.has_flag _ 1).trans (flag_ptr T)
theorem describe_isLref (T : RType) : (describe T).isLvalueReference = decide (T.ref = .lref) :=
  (Desc.has_flag _ 3).trans (flag_lref T)
theorem describe_isRref (T : RType) : (describe T).isRvalueReference = decide (T.ref = .rref) :=
  (Desc.has_flag _ 4).trans (flag_rref T)
theorem describe_isReference (T : RType) : (describe T).isReference = decide (T.ref ≠ .none) := by
  unfold Desc.isReference
  rw [describe_isLref, describe_isRref]
  cases T.ref <;> rfl
theorem describe_isArray (T : RType) : (describe T).isArray = T.t.isArray := by
  unfold Desc.isArray
  have h1 : (describe T).has Flag.Array = _ := (Desc.has_flag _ 5).trans (flag_arr T)
  have h2 : (describe T).hasNot Flag.Pointer = _ := (Desc.hasNot_flag _ 1).trans (congrArg _ (flag_ptr T))
  rw [h1, h2]
  cases T.t <;> simp [CType.removePointer, CType.isArray, CType.isPointer]
theorem describe_isClass (T : RType) : (describe T).isClass =
    (decide (T.t.baseType.kind = .cls) && !T.t.isPointer) := by
  unfold Desc.isClass
  have h1 : (describe T).has Flag.Class = _ := (Desc.has_flag _ 12).trans (flag_cls T)
  have h2 : (describe T).hasNot Flag.Pointer = _ := (Desc.hasNot_flag _ 1).trans (congrArg _ (flag_ptr T))
  rw [h1, h2]
theorem describe_hasClass (T : RType) : (describe T).has Flag.Class = decide (T.t.baseType.kind = .cls) :=
  (Desc.has_flag _ 12).trans (flag_cls T)
theorem describe_hasFunc (T : RType) : (describe T).has Flag.Function = decide (T.t.baseType.kind = .func) :=
  (Desc.has_flag _ 10).trans (flag_func T)
theorem describe_hasVoid (T : RType) : (describe T).has Flag.Void = decide (T.t.baseType.kind = .void) :=
  (Desc.has_flag _ 6).trans (flag_void T)

/-! ### const mask -/

theorem helper_lt (t : CType) (i : Nat) (h : t.pointerArity ≤ i) : t.constBitsetHelper i < 2 ^ (i + 1) := by
  induction t generalizing i with
  | base b q => simp only [CType.constBitsetHelper]; split <;> simp [Nat.one_shiftLeft, Nat.pow_lt_pow_succ, Nat.two_pow_pos]
  | arr n t _ => simp only [CType.constBitsetHelper]; split <;> simp [Nat.one_shiftLeft, Nat.pow_lt_pow_succ, Nat.two_pow_pos]
  | ptr q t ih =>
    simp only [CType.pointerArity] at h
    obtain ⟨j, rfl⟩ : ∃ j, i = j + 1 := ⟨i - 1, by omega⟩
    have := ih j (by omega)
    simp only [CType.constBitsetHelper, Nat.add_sub_cancel, Nat.one_shiftLeft]
    have e : 2 ^ (j + 1 + 1) = 2 ^ (j + 1) + 2 ^ (j + 1) := by rw [Nat.pow_succ]; omega
    split <;> omega

theorem isConst_ptr (q : CV) (t : CType) : (CType.ptr q t).isConst = q.c := rfl

/-- top bit of the mask -/
theorem helper_top (t : CType) (i : Nat) (h : t.pointerArity ≤ i) :
    (t.constBitsetHelper i).testBit i = t.isConst := by
  cases t with
  | base b q => simp only [CType.constBitsetHelper, CType.isConst]; cases q.c <;> simp [Nat.one_shiftLeft]
  | arr n t => simp only [CType.constBitsetHelper]; cases (CType.arr n t).isConst <;> simp [Nat.one_shiftLeft]
  | ptr q t =>
    simp only [CType.pointerArity] at h
    obtain ⟨j, rfl⟩ : ∃ j, i = j + 1 := ⟨i - 1, by omega⟩
    have := helper_lt t j (by omega)
    have hz : (t.constBitsetHelper j).testBit (j + 1) = false := Nat.testBit_lt_two_pow this
    simp only [CType.constBitsetHelper, Nat.add_sub_cancel, CType.isConst]
    cases hq : q.c
    · simpa using hz
    · rw [if_pos rfl, Nat.one_shiftLeft, Nat.testBit_two_pow_add_eq, hz]; rfl

/-- lower bits of a pointer's mask are those of the pointee -/
theorem helper_below (q : CV) (t : CType) (i k : Nat) (hk : k ≤ i) :
    ((CType.ptr q t).constBitsetHelper (i + 1)).testBit k = (t.constBitsetHelper i).testBit k := by
  simp only [CType.constBitsetHelper, Nat.add_sub_cancel]
  split
  · rw [Nat.one_shiftLeft, Nat.testBit_two_pow_add_gt (by omega)]
  · rfl


/-! ### the loops of `compatible` -/

/-- what the double loop decides for levels `0 .. n` -/
def QualOk (n : Nat) (f t : Nat → Bool) : Prop :=
  ∀ i, i ≤ n → (f i = true → t i = true) ∧ (f i = false → t i = true → ∀ j, i < j → j ≤ n → t j = true)

theorem innerLoop_some (to j n : Nat) (h : j + n ≤ 16) :
    ∃ b, innerLoop to j n = some b ∧ (b = true ↔ ∀ k, j ≤ k → k < j + n → to.testBit k = true) := by
  induction n generalizing j with
  | zero => exact ⟨true, rfl, by simp; omega⟩
  | succ n ih =>
    unfold innerLoop bitTest
    rw [if_pos (by omega)]
    cases hb : to.testBit j with
    | false =>
      refine ⟨false, rfl, ?_⟩
      simp only [Bool.false_eq_true, false_iff]
      intro hall
      have := hall j (Nat.le_refl _) (by omega)
      rw [hb] at this; cases this
    | true =>
      obtain ⟨b, e, hb'⟩ := ih (j + 1) (by omega)
      refine ⟨b, e, hb'.trans ?_⟩
      constructor
      · intro h' k hk hk'
        by_cases hjk : j = k
        · subst hjk; exact hb
        · exact h' k (by omega) (by omega)
      · intro h' k hk hk'
        exact h' k (by omega) (by omega)

theorem outerLoop_some (f t i n : Nat) (h : i + n ≤ 16) :
    ∃ b, outerLoop f t i n = some b ∧ (b = true ↔ ∀ k, i ≤ k → k < i + n →
      (f.testBit k = true → t.testBit k = true) ∧
      (f.testBit k = false → t.testBit k = true → ∀ j, k < j → j < i + n → t.testBit j = true)) := by
  induction n generalizing i with
  | zero => exact ⟨true, rfl, by simp; omega⟩
  | succ n ih =>
    unfold outerLoop bitTest
    rw [if_pos (by omega), if_pos (by omega)]
    dsimp only
    cases hf : f.testBit i <;> cases ht : t.testBit i <;>
      simp only [Bool.not_true, Bool.not_false, Bool.and_self, Bool.and_true, Bool.and_false, Bool.false_eq_true,
        if_true, if_false]
    · obtain ⟨b, e, hb⟩ := ih (i + 1) (by omega)
      refine ⟨b, e, hb.trans ?_⟩
      constructor
      · intro h' k hk hk'
        by_cases hik : i = k
        · subst hik; rw [hf, ht]; simp
        · obtain ⟨h1, h2⟩ := h' k (by omega) (by omega)
          exact ⟨h1, fun a b j c d => h2 a b j c (by omega)⟩
      · intro h' k hk hk'
        obtain ⟨h1, h2⟩ := h' k (by omega) (by omega)
        exact ⟨h1, fun a b j c d => h2 a b j c (by omega)⟩
    · obtain ⟨b, e, hb⟩ := innerLoop_some t (i + 1) n (by omega)
      refine ⟨b, e, hb.trans ?_⟩
      constructor
      · intro h' k hk hk'
        have ht' : ∀ j, i ≤ j → j < i + (n + 1) → t.testBit j = true := by
          intro j h1 h2
          by_cases hij : i = j
          · subst hij; exact ht
          · exact h' j (by omega) (by omega)
        exact ⟨fun _ => ht' k hk hk', fun _ _ j h1 h2 => ht' j (by omega) h2⟩
      · intro h' k hk hk'
        exact (h' i (Nat.le_refl _) (by omega)).2 hf ht k (by omega) (by omega)
    · refine ⟨false, rfl, ?_⟩
      simp only [Bool.false_eq_true, false_iff]
      intro h'
      have := (h' i (Nat.le_refl _) (by omega)).1 hf
      rw [ht] at this; cases this
    · obtain ⟨b, e, hb⟩ := ih (i + 1) (by omega)
      refine ⟨b, e, hb.trans ?_⟩
      constructor
      · intro h' k hk hk'
        by_cases hik : i = k
        · subst hik; rw [hf, ht]; simp
        · obtain ⟨h1, h2⟩ := h' k (by omega) (by omega)
          exact ⟨h1, fun a b j c d => h2 a b j c (by omega)⟩
      · intro h' k hk hk'
        obtain ⟨h1, h2⟩ := h' k (by omega) (by omega)
        exact ⟨h1, fun a b j c d => h2 a b j c (by omega)⟩

theorem outerLoop_qual (f t n : Nat) (h : n < 16) :
    ∃ b, (if f == t then some true else outerLoop f t 0 (n + 1)) = some b ∧
      (b = true ↔ QualOk n f.testBit t.testBit) := by
  split
  · rename_i e
    rw [beq_iff_eq] at e
    subst e
    refine ⟨true, rfl, by simp only [true_iff]; intro i _; exact ⟨id, fun a b => by rw [a] at b; cases b⟩⟩
  · obtain ⟨b, e, hb⟩ := outerLoop_some f t 0 (n + 1) (by omega)
    refine ⟨b, e, hb.trans ?_⟩
    constructor
    · intro h' i hi
      obtain ⟨h1, h2⟩ := h' i (by omega) (by omega)
      exact ⟨h1, fun a b j c d => h2 a b j c (by omega)⟩
    · intro h' i _ hi
      obtain ⟨h1, h2⟩ := h' i (by omega)
      exact ⟨h1, fun a b j c d => h2 a b j c (by omega)⟩


/-! ### `compatible` of two described types -/

theorem constBitset_lt (t : CType) : t.constBitset < 2 ^ (t.pointerArity + 1) :=
  helper_lt t _ (Nat.le_refl _)

theorem describe_mask (T : RType) (h : T.t.pointerArity < 16) : (describe T).constMask = T.t.constBitset := by
  have h1 := constBitset_lt T.t
  have h2 : 2 ^ (T.t.pointerArity + 1) ≤ 2 ^ 16 := Nat.pow_le_pow_right (by omega) (by omega)
  exact Nat.mod_eq_of_lt (by omega)

theorem describe_arity (T : RType) (h : T.t.pointerArity < 16) : (describe T).arity = T.t.pointerArity :=
  Nat.mod_eq_of_lt (by omega)

/-- source arity after array decay -/
def effArity (S T : RType) : Nat :=
  if S.t.isArray && T.t.isPointer then S.t.pointerArity + 1 else S.t.pointerArity

/-- source mask after array decay -/
def effBit (S T : RType) (i : Nat) : Bool :=
  S.t.constBitset.testBit i ||
    (S.t.isArray && !T.t.isArray && decide (T.ref ≠ .none) && decide (i = effArity S T))

structure CompatOk (S T : RType) : Prop where
  lref : T.ref = .lref → S.ref = .lref ∨ T.t.isConst = true
  rref : T.ref = .rref → S.ref ≠ .lref
  size : S.t.isArray = true → T.t.isArray = true → T.t.sizeOf ≤ S.t.sizeOf
  arity : effArity S T = T.t.pointerArity
  masks : (T.ref = .none ∧ effArity S T = 0) ∨
    QualOk (if T.ref = .none then effArity S T - 1 else effArity S T) (effBit S T) T.t.constBitset.testBit

theorem arity_arr {t : CType} (h : t.isArray = true) : t.pointerArity = 0 := by
  cases t <;> simp_all [CType.isArray, CType.pointerArity]

theorem compatible_iff (S T : RType) (hS : S.t.pointerArity < 16) (hT : T.t.pointerArity < 16) :
    ∃ b, compatible (describe S) (describe T) = some b ∧ (b = true ↔ CompatOk S T) := by
  unfold compatible
  rw [describe_isLref, describe_isLref, describe_isConst, describe_isRref, describe_isArray, describe_isArray,
    describe_isPointer, describe_arity S hS, describe_arity T hT]
  split
  · rename_i h
    refine ⟨false, rfl, ?_⟩
    simp only [Bool.false_eq_true, false_iff]
    intro c
    simp at h
    rcases c.lref h.1.2 with h' | h'
    · exact h.1.1 h'
    · rw [h.2] at h'; cases h'
  · rename_i h0
    split
    · rename_i h
      refine ⟨false, rfl, ?_⟩
      simp only [Bool.false_eq_true, false_iff]
      intro c
      simp at h
      exact c.rref h.2 h.1
    · rename_i h1
      split
      · rename_i h
        refine ⟨false, rfl, ?_⟩
        simp only [Bool.false_eq_true, false_iff]
        intro c
        simp at h
        have := c.size h.1.1 h.1.2
        have h3 : S.t.sizeOf < T.t.sizeOf := h.2
        omega
      · rename_i h2
        dsimp only
        rw [show (if (S.t.isArray && T.t.isPointer) = true then S.t.pointerArity + 1 else S.t.pointerArity) =
          effArity S T from rfl]
        split
        · rename_i h
          refine ⟨false, rfl, ?_⟩
          simp only [Bool.false_eq_true, false_iff]
          intro c
          simp at h
          exact h c.arity
        · rename_i h3
          have ha : effArity S T = T.t.pointerArity := by simpa using h3
          have hl : T.ref = .lref → S.ref = .lref ∨ T.t.isConst = true := by
            intro e
            simp [e] at h0
            by_cases h : S.ref = .lref
            · exact .inl h
            · exact .inr (h0 h)
          have hr : T.ref = .rref → S.ref ≠ .lref := by
            intro e h; simp [e, h] at h1
          have hs : S.t.isArray = true → T.t.isArray = true → T.t.sizeOf ≤ S.t.sizeOf := by
            intro e e'
            simp only [e, e', Bool.and_self, Bool.true_and, decide_eq_true_eq, Nat.not_lt] at h2
            exact h2
          unfold compatibleMasks
          rw [describe_isReference, describe_isArray, describe_isArray, describe_mask S hS, describe_mask T hT]
          split
          · rename_i h
            simp at h
            exact ⟨true, rfl, by simp only [true_iff]; exact ⟨hl, hr, hs, ha, .inl ⟨h.1, h.2⟩⟩⟩
          · rename_i h4
            simp at h4
            have hn : (if decide (T.ref ≠ .none) = true then effArity S T else effArity S T - 1) =
                (if T.ref = .none then effArity S T - 1 else effArity S T) := by
              by_cases h : T.ref = .none <;> simp [h]
            dsimp only
            rw [hn]
            have hlt : (if T.ref = .none then effArity S T - 1 else effArity S T) < 16 := by split <;> omega
            rw [if_neg (by simp; intros; split <;> omega)]
            obtain ⟨b, e, hb⟩ := outerLoop_qual
              (if (S.t.isArray && !T.t.isArray && decide (T.ref ≠ .none)) = true then
                S.t.constBitset ||| 1 <<< (if T.ref = .none then effArity S T - 1 else effArity S T)
                else S.t.constBitset) T.t.constBitset _ hlt
            refine ⟨b, e, hb.trans ?_⟩
            have hbit : ∀ i, (if (S.t.isArray && !T.t.isArray && decide (T.ref ≠ .none)) = true then
                S.t.constBitset ||| 1 <<< (if T.ref = .none then effArity S T - 1 else effArity S T)
                else S.t.constBitset).testBit i = effBit S T i := by
              intro i
              unfold effBit
              split
              · rename_i h
                rw [h, Nat.testBit_or, Nat.one_shiftLeft, Nat.testBit_two_pow]
                simp at h
                simp [h.2, eq_comm]
              · rename_i h
                rw [Bool.eq_false_iff.2 h]; simp
            have hfun : (if (S.t.isArray && !T.t.isArray && decide (T.ref ≠ .none)) = true then
                S.t.constBitset ||| 1 <<< (if T.ref = .none then effArity S T - 1 else effArity S T)
                else S.t.constBitset).testBit = effBit S T := funext hbit
            rw [hfun]
            constructor
            · intro h; exact ⟨hl, hr, hs, ha, .inr h⟩
            · intro c
              rcases c.masks with ⟨h5, h6⟩ | h
              · exact absurd h6 (h4 h5)
              · exact h

theorem QualOk.trans {n : Nat} {f g h : Nat → Bool} (a : QualOk n f g) (b : QualOk n g h) : QualOk n f h := by
  intro i hi
  obtain ⟨a1, a2⟩ := a i hi
  obtain ⟨b1, b2⟩ := b i hi
  refine ⟨fun x => b1 (a1 x), fun hf hh j hij hj => ?_⟩
  cases hg : g i with
  | false => exact b2 hg hh j hij hj
  | true => exact (b j hj).1 (a2 hf hg j hij hj)

theorem QualOk.mono {n m : Nat} {f g : Nat → Bool} (h : m ≤ n) (a : QualOk n f g) : QualOk m f g := by
  intro i hi
  obtain ⟨a1, a2⟩ := a i (by omega)
  exact ⟨a1, fun x y j h1 h2 => a2 x y j h1 (by omega)⟩

theorem QualOk.congr {n : Nat} {f f' g g' : Nat → Bool} (hf : ∀ i, i ≤ n → f i = f' i)
    (hg : ∀ i, i ≤ n → g i = g' i) (a : QualOk n f g) : QualOk n f' g' := by
  intro i hi
  obtain ⟨a1, a2⟩ := a i hi
  rw [hf i hi, hg i hi] at a1
  refine ⟨a1, fun x y j h1 h2 => ?_⟩
  rw [← hg j h2]
  exact a2 (by rw [hf i hi]; exact x) (by rw [hg i hi]; exact y) j h1 h2

/-! ### masks of pointers -/

theorem bit_ptr (q : CV) (t : CType) (k : Nat) (hk : k ≤ t.pointerArity) :
    (CType.ptr q t).constBitset.testBit k = t.constBitset.testBit k := helper_below q t _ k hk

theorem bit_top (t : CType) : t.constBitset.testBit t.pointerArity = t.isConst :=
  helper_top t _ (Nat.le_refl _)

theorem isConst_iff (t : CType) : t.isConst = true ↔ IsConst t := by
  induction t with
  | base b q =>
    rcases q with ⟨c, v⟩
    constructor
    · intro h; simp [CType.isConst] at h; subst h; exact .base b v
    · intro h; cases h; rfl
  | ptr q t _ =>
    rcases q with ⟨c, v⟩
    constructor
    · intro h; simp [CType.isConst] at h; subst h; exact .ptr v t
    · intro h; cases h; rfl
  | arr n t ih =>
    constructor
    · intro h; exact .arr n (ih.1 h)
    · intro h; cases h with | arr _ h => exact ih.2 h

theorem depth_iff (t : CType) (d : Nat) : Depth t d ↔ d = t.pointerArity := by
  induction t generalizing d with
  | base b q => exact ⟨fun h => by cases h; rfl, fun h => by subst h; exact .base b q⟩
  | arr n t _ => exact ⟨fun h => by cases h; rfl, fun h => by subst h; exact .arr n t⟩
  | ptr q t ih =>
    constructor
    · intro h; cases h with | ptr _ h => rw [(ih _).1 h]; rfl
    · intro h; subst h; exact .ptr q ((ih _).2 rfl)

theorem Spec.AtLevel.bit {t s : CType} {k : Nat} (h : AtLevel t k s) :
    k ≤ t.pointerArity ∧ t.constBitset.testBit k = s.isConst := by
  induction h with
  | here hd => rw [depth_iff] at hd; subst hd; exact ⟨Nat.le_refl _, bit_top _⟩
  | under q _ ih =>
    refine ⟨Nat.le_succ_of_le ih.1, ?_⟩
    rw [bit_ptr q _ _ ih.1]; exact ih.2

theorem Spec.AtLevel.exists (t : CType) (k : Nat) (h : k ≤ t.pointerArity) : ∃ s, AtLevel t k s := by
  induction t with
  | base b q => simp [CType.pointerArity] at h; subst h; exact ⟨_, .here (.base b q)⟩
  | arr n t _ => simp [CType.pointerArity] at h; subst h; exact ⟨_, .here (.arr n t)⟩
  | ptr q t ih =>
    by_cases hk : k ≤ t.pointerArity
    · obtain ⟨s, hs⟩ := ih hk; exact ⟨s, .under q hs⟩
    · simp only [CType.pointerArity] at h
      have : k = t.pointerArity + 1 := by omega
      subst this
      exact ⟨_, .here ((depth_iff _ _).2 rfl)⟩

end Rtti
