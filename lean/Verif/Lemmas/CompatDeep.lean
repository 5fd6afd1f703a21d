import Verif.Lemmas.CType
/-! `compatible` for types of 16 and more pointer levels -/
set_option autoImplicit false
namespace Rtti
open Spec

theorem innerLoop_none (to n : Nat) : ∀ j, j ≤ 16 → 16 < j + n →
    (innerLoop to j n = none ↔ ∀ k, j ≤ k → k < 16 → to.testBit k = true) ∧ innerLoop to j n ≠ some true := by
  induction n with
  | zero => intro j h h'; omega
  | succ n ih =>
    intro j hj hn
    unfold innerLoop bitTest
    by_cases h16 : j < 16
    · rw [if_pos h16]
      cases hb : to.testBit j with
      | false =>
        refine ⟨⟨fun h => (by cases h), fun h => ?_⟩, by simp⟩
        have := h j (Nat.le_refl _) h16
        rw [hb] at this; cases this
      | true =>
        obtain ⟨h1, h2⟩ := ih (j + 1) (by omega) (by omega)
        refine ⟨h1.trans ⟨fun h k a b => ?_, fun h k a b => h k (by omega) b⟩, h2⟩
        by_cases e : j = k
        · subst e; exact hb
        · exact h k (by omega) b
    · rw [if_neg h16]
      exact ⟨⟨fun _ k a b => by omega, fun _ => rfl⟩, by simp⟩

theorem outerLoop_deep (f t n : Nat) : ∀ i, i ≤ 16 → 16 < i + n → (∃ k, i ≤ k ∧ k < 16 ∧ f.testBit k ≠ t.testBit k) →
    (outerLoop f t i n = none ↔ ∃ p, i ≤ p ∧ p < 16 ∧ (∀ k, i ≤ k → k < p → f.testBit k = t.testBit k) ∧
      f.testBit p = false ∧ ∀ k, p ≤ k → k < 16 → t.testBit k = true) ∧ outerLoop f t i n ≠ some true := by
  induction n with
  | zero => intro i h h'; omega
  | succ n ih =>
    intro i hi hn hd
    obtain ⟨d, hd1, hd2, hd3⟩ := hd
    unfold outerLoop bitTest
    have h16 : i < 16 := by omega
    rw [if_pos h16, if_pos h16]
    dsimp only
    have same : f.testBit i = t.testBit i →
        ((outerLoop f t (i + 1) n = none ↔ ∃ p, i ≤ p ∧ p < 16 ∧ (∀ k, i ≤ k → k < p → f.testBit k = t.testBit k) ∧
          f.testBit p = false ∧ ∀ k, p ≤ k → k < 16 → t.testBit k = true) ∧ outerLoop f t (i + 1) n ≠ some true) := by
      intro e
      have hne : i ≠ d := fun h => hd3 (h ▸ e)
      obtain ⟨h1, h2⟩ := ih (i + 1) (by omega) (by omega) ⟨d, by omega, hd2, hd3⟩
      refine ⟨h1.trans ⟨?_, ?_⟩, h2⟩
      · rintro ⟨p, a, b, c, x, y⟩
        refine ⟨p, by omega, b, fun k k1 k2 => ?_, x, y⟩
        by_cases e' : i = k
        · subst e'; exact e
        · exact c k (by omega) k2
      · rintro ⟨p, a, b, c, x, y⟩
        have : i ≠ p := by
          intro h; subst h
          have := y i (Nat.le_refl _) b
          rw [← e, x] at this; cases this
        exact ⟨p, by omega, b, fun k k1 k2 => c k (by omega) k2, x, y⟩
    cases hf : f.testBit i <;> cases ht : t.testBit i <;>
      simp only [Bool.not_true, Bool.not_false, Bool.and_self, Bool.and_true, Bool.and_false, Bool.false_eq_true,
        if_true, if_false]
    · exact same (hf.trans ht.symm)
    · obtain ⟨h1, h2⟩ := innerLoop_none t n (i + 1) (by omega) (by omega)
      refine ⟨h1.trans ⟨fun h => ⟨i, Nat.le_refl _, h16, fun k a b => by omega, hf, fun k a b => ?_⟩, ?_⟩, h2⟩
      · by_cases e : i = k
        · subst e; exact ht
        · exact h k (by omega) b
      · rintro ⟨p, a, b, c, x, y⟩ k k1 k2
        have : p = i := by
          apply Classical.byContradiction
          intro hp
          have := c i (Nat.le_refl _) (by omega)
          rw [hf, ht] at this; cases this
        exact y k (by omega) k2
    · refine ⟨⟨fun h => (by cases h), ?_⟩, by simp⟩
      rintro ⟨p, a, b, c, x, y⟩
      by_cases hp : p = i
      · subst hp; rw [hf] at x; cases x
      · have := c i (Nat.le_refl _) (by omega)
        rw [hf, ht] at this; cases this
    · exact same (hf.trans ht.symm)

theorem mask_bit (T : RType) (k : Nat) (h : k < 16) : (describe T).constMask.testBit k = T.t.constBitset.testBit k := by
  have : (describe T).constMask = T.t.constBitset % 2 ^ 16 := rfl
  rw [this, Nat.testBit_mod_two_pow]; simp [h]

theorem mask_eq (S T : RType) : (describe S).constMask = (describe T).constMask ↔
    ∀ k, k < 16 → S.t.constBitset.testBit k = T.t.constBitset.testBit k := by
  constructor
  · intro h k hk; rw [← mask_bit S k hk, ← mask_bit T k hk, h]
  · intro h
    apply Nat.eq_of_testBit_eq
    intro k
    by_cases hk : k < 16
    · rw [mask_bit S k hk, mask_bit T k hk, h k hk]
    · have lt (R : RType) : (describe R).constMask < 2 ^ k :=
        Nat.lt_of_lt_of_le (Nat.mod_lt _ (by decide) : (describe R).constMask < 2 ^ 16)
          (Nat.pow_le_pow_right (n := 2) (j := k) (by decide) (Nat.le_of_not_lt hk))
      rw [Nat.testBit_lt_two_pow (lt S), Nat.testBit_lt_two_pow (lt T)]

/-- the tests on references refuse it -/
def Refused (S T : RType) : Prop :=
  (S.ref ≠ .lref ∧ T.ref = .lref ∧ ¬ IsConst T.t) ∨ (S.ref = .lref ∧ T.ref = .rref)

theorem compatible_deep (S T : RType) (m : Nat) (hS : S.t.pointerArity = m) (hT : T.t.pointerArity = m) (hm : m < 65536)
    (h16 : 16 ≤ if T.ref = .none then m - 1 else m) (hr : ¬ Refused S T) :
    (compatible (describe S) (describe T) = some true ↔ ∀ k, k < 16 → S.t.constBitset.testBit k = T.t.constBitset.testBit k) ∧
    (compatible (describe S) (describe T) = none ↔ ∃ p, p < 16 ∧ (∀ k, k < p → S.t.constBitset.testBit k = T.t.constBitset.testBit k) ∧
      S.t.constBitset.testBit p = false ∧ ∀ k, p ≤ k → k < 16 → T.t.constBitset.testBit k = true) := by
  have h16' : 16 ≤ m := by split at h16 <;> omega
  have aS : S.t.isArray = false := by
    cases h : S.t.isArray with
    | false => rfl
    | true => have := arity_arr h; omega
  have arS : (describe S).arity = m := by show S.t.pointerArity % 65536 = m; rw [hS]; exact Nat.mod_eq_of_lt hm
  have arT : (describe T).arity = m := by show T.t.pointerArity % 65536 = m; rw [hT]; exact Nat.mod_eq_of_lt hm
  have hc : T.t.isConst = true ↔ IsConst T.t := isConst_iff _
  have e : compatible (describe S) (describe T) =
      if (describe S).constMask == (describe T).constMask then some true
      else outerLoop (describe S).constMask (describe T).constMask 0 ((if T.ref = .none then m - 1 else m) + 1) := by
    unfold compatible compatibleMasks
    rw [describe_isLref, describe_isLref, describe_isConst, describe_isRref, describe_isArray, describe_isArray, describe_isPointer, arS, arT,
      describe_isReference, aS]
    simp only [Refused, not_or, not_and, Classical.not_not] at hr
    rw [if_neg, if_neg]
    · have : ¬ (m = 0) := by omega
      by_cases hn : T.ref = .none <;> simp [hn, this]
    · simpa using hr.2
    · simp only [Bool.and_eq_true, Bool.not_eq_true', decide_eq_false_iff_not, decide_eq_true_eq]
      rintro ⟨⟨a, b⟩, c⟩
      have := hc.2 (hr.1 a b)
      rw [c] at this; cases this
  rw [e]
  by_cases hq : (describe S).constMask = (describe T).constMask
  · have hq' := (mask_eq S T).1 hq
    rw [if_pos (by simpa using hq)]
    refine ⟨⟨fun _ => hq', fun _ => rfl⟩, ⟨fun h => (by cases h), ?_⟩⟩
    rintro ⟨p, a, _, b, c⟩
    have := c p (Nat.le_refl _) a
    rw [← hq' p a, b] at this; cases this
  · rw [if_neg (by simpa using hq)]
    have hq' : ¬ ∀ k, k < 16 → S.t.constBitset.testBit k = T.t.constBitset.testBit k := fun h => hq ((mask_eq S T).2 h)
    have hd : ∃ k, 0 ≤ k ∧ k < 16 ∧ (describe S).constMask.testBit k ≠ (describe T).constMask.testBit k := by
      apply Classical.byContradiction
      intro h
      apply hq'
      intro k hk
      apply Classical.byContradiction
      intro h'
      exact h ⟨k, Nat.zero_le _, hk, by rw [mask_bit S k hk, mask_bit T k hk]; exact h'⟩
    obtain ⟨h1, h2⟩ := outerLoop_deep (describe S).constMask (describe T).constMask _ 0 (by omega)
      (show 16 < 0 + ((if T.ref = .none then m - 1 else m) + 1) by omega) hd
    refine ⟨⟨fun h => absurd h h2, fun h => absurd h hq'⟩, h1.trans ⟨?_, ?_⟩⟩
    · rintro ⟨p, _, b, c, x, y⟩
      refine ⟨p, b, fun k k1 => ?_, by rw [← mask_bit S p b]; exact x, fun k k1 k2 => by rw [← mask_bit T k k2]; exact y k k1 k2⟩
      have := c k (Nat.zero_le _) k1
      rwa [mask_bit S k (by omega), mask_bit T k (by omega)] at this
    · rintro ⟨p, b, c, x, y⟩
      refine ⟨p, Nat.zero_le _, b, fun k _ k1 => ?_, by rw [mask_bit S p b]; exact x, fun k k1 k2 => by rw [mask_bit T k k2]; exact y k k1 k2⟩
      rw [mask_bit S k (by omega), mask_bit T k (by omega)]
      exact c k k1

/-- values of 16 levels: the top one does not matter, the other 16 fit into the mask -/
theorem compatible_16 (S T : RType) (hS : S.t.pointerArity = 16) (hT : T.t.pointerArity = 16) (hr : T.ref = .none) :
    ∃ b, compatible (describe S) (describe T) = some b ∧ (b = true ↔ CompatOk S T) := by
  have aS : S.t.isArray = false := by
    cases h : S.t.isArray with
    | false => rfl
    | true => have := arity_arr h; omega
  have arS : (describe S).arity = 16 := by show S.t.pointerArity % 65536 = 16; rw [hS]
  have arT : (describe T).arity = 16 := by show T.t.pointerArity % 65536 = 16; rw [hT]
  have e : compatible (describe S) (describe T) =
      if (describe S).constMask == (describe T).constMask then some true
      else outerLoop (describe S).constMask (describe T).constMask 0 (15 + 1) := by
    unfold compatible compatibleMasks
    rw [describe_isLref, describe_isLref, describe_isConst, describe_isRref, describe_isArray, describe_isArray, describe_isPointer, arS, arT,
      describe_isReference, aS]
    simp [hr]
  obtain ⟨b, hb, hb'⟩ := outerLoop_qual (describe S).constMask (describe T).constMask 15 (by omega)
  rw [e]
  refine ⟨b, hb, hb'.trans ?_⟩
  have e1 : effArity S T = 16 := by simp [effArity, aS, hS]
  have e2 : effBit S T = S.t.constBitset.testBit := by funext i; simp [effBit, aS]
  have q : QualOk 15 (describe S).constMask.testBit (describe T).constMask.testBit ↔ QualOk 15 S.t.constBitset.testBit T.t.constBitset.testBit := by
    unfold QualOk
    refine forall_congr' fun i => ?_
    refine ⟨fun h hi => ?_, fun h hi => ?_⟩
    · have := h hi
      rw [mask_bit S i (by omega), mask_bit T i (by omega)] at this
      exact ⟨this.1, fun a b j hj hj' => by rw [← mask_bit T j (by omega)]; exact this.2 a b j hj hj'⟩
    · have := h hi
      rw [mask_bit S i (by omega), mask_bit T i (by omega)]
      exact ⟨this.1, fun a b j hj hj' => by rw [mask_bit T j (by omega)]; exact this.2 a b j hj hj'⟩
  rw [q]
  constructor
  · intro h
    refine ⟨by simp [hr], by simp [hr], by simp [aS], by rw [e1, hT], .inr ?_⟩
    rw [e1, e2, if_pos hr]; exact h
  · intro c
    rcases c.masks with ⟨_, h⟩ | h
    · rw [e1] at h; cases h
    · rw [e1, e2, if_pos hr] at h; exact h

/-- a different number of levels -/
theorem compatible_levels (S T : RType) (hm : S.t.pointerArity < 65536) (hn : T.t.pointerArity < 65536)
    (h : effArity S T ≠ T.t.pointerArity) : compatible (describe S) (describe T) = some false := by
  have arS : (describe S).arity = S.t.pointerArity := Nat.mod_eq_of_lt hm
  have arT : (describe T).arity = T.t.pointerArity := Nat.mod_eq_of_lt hn
  unfold compatible
  rw [describe_isArray, describe_isArray, describe_isPointer, arS, arT]
  split
  · rfl
  split
  · rfl
  split
  · rfl
  dsimp only
  rw [show (if (S.t.isArray && T.t.isPointer) = true then S.t.pointerArity + 1 else S.t.pointerArity) = effArity S T from rfl, if_pos]
  simpa using h

/-- as long as the compared levels are fewer than 17 -/
theorem compatible_fits (S T : RType) (hm : S.t.pointerArity < 65536) (hn : T.t.pointerArity < 65536)
    (h : T.t.pointerArity < (if T.ref = .none then 17 else 16)) :
    ∃ b, compatible (describe S) (describe T) = some b ∧ (b = true ↔ CompatOk S T) := by
  by_cases ha : effArity S T = T.t.pointerArity
  · by_cases h16 : T.t.pointerArity < 16
    · refine compatible_iff S T ?_ h16
      unfold effArity at ha
      split at ha <;> omega
    · have hr : T.ref = .none := by
        refine Classical.byContradiction fun hr => ?_
        rw [if_neg hr] at h; exact h16 h
      rw [if_pos hr] at h
      refine compatible_16 S T ?_ (by omega) hr
      unfold effArity at ha
      split at ha
      · rename_i hx
        simp only [Bool.and_eq_true] at hx
        have := arity_arr hx.1
        omega
      · omega
  · refine ⟨false, compatible_levels S T hm hn ha, by simp; exact fun c => ha c.arity⟩

/-- below that there is always an answer -/
theorem compatible_shallow (S T : RType) (hm : S.t.pointerArity < 65536) (hn : T.t.pointerArity < 65536)
    (h : Refused S T ∨ S.t.pointerArity ≠ T.t.pointerArity ∨ (if T.ref = .none then S.t.pointerArity - 1 else S.t.pointerArity) < 16) :
    compatible (describe S) (describe T) ≠ none := by
  have arS : (describe S).arity = S.t.pointerArity := Nat.mod_eq_of_lt hm
  have arT : (describe T).arity = T.t.pointerArity := Nat.mod_eq_of_lt hn
  have hc : T.t.isConst = true ↔ IsConst T.t := isConst_iff _
  unfold compatible
  rw [describe_isLref, describe_isLref, describe_isConst, describe_isRref, describe_isArray, describe_isArray, describe_isPointer, arS, arT]
  split
  · simp
  split
  · simp
  split
  · simp
  next r1 r2 _ =>
  dsimp only
  by_cases ha : (if (S.t.isArray && T.t.isPointer) = true then S.t.pointerArity + 1 else S.t.pointerArity) = T.t.pointerArity
  case neg => rw [if_pos (by simpa using ha)]; simp
  rw [if_neg (by simpa using ha)]
  have hr : ¬ Refused S T := by
    rintro (⟨a, b, c⟩ | ⟨a, b⟩)
    · exact r1 (by simp [a, b]; cases hx : T.t.isConst with
        | false => rfl
        | true => exact absurd (hc.1 hx) c)
    · exact r2 (by simp [a, b])
  rw [ha]
  have h16 : (if T.ref = .none then T.t.pointerArity - 1 else T.t.pointerArity) < 16 := by
    rcases h with h | h | h
    · exact absurd h hr
    · cases hp : (S.t.isArray && T.t.isPointer) with
      | false => rw [hp] at ha; exact absurd ha h
      | true =>
        rw [hp] at ha
        simp only [Bool.and_eq_true] at hp
        have := arity_arr hp.1
        simp only [if_true] at ha
        split <;> omega
    · cases hp : (S.t.isArray && T.t.isPointer) with
      | false => rw [hp] at ha; simp only [Bool.false_eq_true, if_false] at ha; rw [← ha]; exact h
      | true =>
        rw [hp] at ha
        simp only [Bool.and_eq_true] at hp
        have := arity_arr hp.1
        simp only [if_true] at ha
        split <;> omega
  unfold compatibleMasks
  rw [describe_isArray, describe_isArray, describe_isReference]
  split
  · simp
  dsimp only
  have e : (if decide (T.ref ≠ .none) = true then T.t.pointerArity else T.t.pointerArity - 1) =
      if T.ref = .none then T.t.pointerArity - 1 else T.t.pointerArity := by
    by_cases h : T.ref = .none <;> simp [h]
  rw [e]
  generalize (if T.ref = .none then T.t.pointerArity - 1 else T.t.pointerArity) = d at h16
  rw [if_neg (by simp; omega)]
  obtain ⟨b, hb, _⟩ := outerLoop_qual (if S.t.isArray && !T.t.isArray && decide (T.ref ≠ .none) then
    (describe S).constMask ||| 1 <<< d else (describe S).constMask) (describe T).constMask d h16
  rw [hb]; simp

end Rtti
