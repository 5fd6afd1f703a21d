import Verif.Props.Types
import Verif.Lemmas.CompatDeep
/-! C07, C08, C09, C10 without bounds: exactly when `compatible` terminates the process, and what it answers at 16 and more
pointer levels. -/
set_option autoImplicit false
namespace Rtti.Props
open Rtti Spec

/-- the type left when `k` pointers remain is const -/
def ConstAt (t : CType) (k : Nat) : Prop := ∃ s, AtLevel t k s ∧ IsConst s

private theorem constAt_iff (t : CType) (k : Nat) (h : k ≤ t.pointerArity) : t.constBitset.testBit k = true ↔ ConstAt t k := by
  constructor
  · intro hb
    obtain ⟨s, hs⟩ := AtLevel.exists t k h
    exact ⟨s, hs, (isConst_iff s).1 (by rw [← hs.bit.2]; exact hb)⟩
  · rintro ⟨s, hs, hc⟩
    rw [hs.bit.2]; exact (isConst_iff s).2 hc

/-- references are never bound this way, whatever the types below -/
def NeverBinds (S T : RType) : Prop :=
  (S.ref ≠ .lref ∧ T.ref = .lref ∧ ¬ IsConst T.t) ∨ (S.ref = .lref ∧ T.ref = .rref)

private theorem bits_iff (S T : RType) (m : Nat) (hS : S.t.pointerArity = m) (hT : T.t.pointerArity = m) (h : 16 ≤ m) (k : Nat) (hk : k < 16) :
    S.t.constBitset.testBit k = T.t.constBitset.testBit k ↔ (ConstAt S.t k ↔ ConstAt T.t k) := by
  rw [← constAt_iff S.t k (by omega), ← constAt_iff T.t k (by omega)]
  cases S.t.constBitset.testBit k <;> cases T.t.constBitset.testBit k <;> simp

/-- C10: exactly when the process is terminated. `d` is the outermost level compared: the top one, or the one below if a
    value is initialised. It must be 16 or more; the types must first differ below 16 at a level const in the target only;
    and the target must be const from there up to level 15. -/
theorem C10_terminates_iff (S T : RType) (m n : Nat) (hS : Depth S.t m) (hT : Depth T.t n) (hm : m < 65536) (hn : n < 65536) :
    compatible (describe S) (describe T) = none ↔
      ¬ NeverBinds S T ∧ m = n ∧ 16 ≤ (if T.ref = .none then m - 1 else m) ∧
      ∃ p, p < 16 ∧ (∀ k, k < p → (ConstAt S.t k ↔ ConstAt T.t k)) ∧ ¬ ConstAt S.t p ∧ ∀ k, p ≤ k → k < 16 → ConstAt T.t k := by
  rw [depth_iff] at hS hT
  by_cases h : Refused S T ∨ S.t.pointerArity ≠ T.t.pointerArity ∨ (if T.ref = .none then S.t.pointerArity - 1 else S.t.pointerArity) < 16
  · refine ⟨fun e => absurd e (compatible_shallow S T (by omega) (by omega) h), ?_⟩
    rintro ⟨h1, h2, h3, _⟩
    rcases h with h | h | h
    · exact absurd h h1
    · omega
    · rw [← hS] at h; omega
  · simp only [not_or, Classical.not_not, Nat.not_lt] at h
    obtain ⟨h1, h2, h3⟩ := h
    rw [← hS] at h3
    have h16 : 16 ≤ m := by split at h3 <;> omega
    have hT' : T.t.pointerArity = m := by omega
    rw [(compatible_deep S T m hS.symm hT' hm h3 h1).2]
    constructor
    · rintro ⟨p, a, b, c, d⟩
      refine ⟨h1, by omega, h3, p, a, fun k hk => (bits_iff S T m hS.symm hT' h16 k (by omega)).1 (b k hk), ?_,
        fun k k1 k2 => (constAt_iff _ _ (by omega)).1 (d k k1 k2)⟩
      intro hc
      rw [(constAt_iff S.t p (by omega)).2 hc] at c; cases c
    · rintro ⟨_, _, _, p, a, b, c, d⟩
      refine ⟨p, a, fun k hk => (bits_iff S T m hS.symm hT' h16 k (by omega)).2 (b k hk), ?_,
        fun k k1 k2 => (constAt_iff _ _ (by omega)).2 (d k k1 k2)⟩
      cases e : S.t.constBitset.testBit p with
      | false => rfl
      | true => exact absurd ((constAt_iff S.t p (by omega)).1 e) c

/-- C10: what is answered at 16 and more levels: "yes" exactly if the 16 innermost levels agree. Outer levels are ignored. -/
theorem C10_deep_answer (S T : RType) (m : Nat) (hS : Depth S.t m) (hT : Depth T.t m) (hm : m < 65536)
    (h16 : 16 ≤ if T.ref = .none then m - 1 else m) (hb : ¬ NeverBinds S T) :
    compatible (describe S) (describe T) = some true ↔ ∀ k, k < 16 → (ConstAt S.t k ↔ ConstAt T.t k) := by
  rw [depth_iff] at hS hT
  have hm16 : 16 ≤ m := by split at h16 <;> omega
  rw [(compatible_deep S T m hS.symm hT.symm hm h16 hb).1]
  exact ⟨fun h k hk => (bits_iff S T m hS.symm hT.symm hm16 k hk).1 (h k hk), fun h k hk => (bits_iff S T m hS.symm hT.symm hm16 k hk).2 (h k hk)⟩

/-- C08 is false at 16 levels: a reference to a const 16-fold pointer is accepted as one to a non-const pointer. -/
theorem C08_deep_false : ∃ S T : RType, ArrayFree S.t ∧ ArrayFree T.t ∧ SameDecay S.t T.t ∧
    compatible (describe S) (describe T) = some true ∧ ¬ KeepsConst S T := by
  have free : ∀ n, ArrayFree (ptrs Ex.nn n Ex.int) := by
    intro n
    induction n with
    | zero => exact .base _ _
    | succ n ih => exact .ptr _ ih
  refine ⟨⟨.lref, .ptr Ex.kk (ptrs Ex.nn 15 Ex.int)⟩, ⟨.lref, .ptr Ex.nn (ptrs Ex.nn 15 Ex.int)⟩, .ptr _ (free 15), .ptr _ (free 15),
    (fullDecay_iff _ _).1 (by decide), by decide, fun h => ?_⟩
  have := h 0 _ _ (.here _) (.here _) (by decide) (.ptr _ _)
  cases this

/-- C07, all references: for types equal up to const and without arrays, below 16 levels, the only things accepted that C++
    refuses are rvalues for `const volatile &`. -/
theorem C07_exact_partial (S T : RType) (h : SameModConst S.t T.t) (ha : ArrayFree S.t) (d : Nat) (hd : Depth S.t d) (h16 : d < 16) :
    compatible (describe S) (describe T) = some true ↔
      MayInit S T ∨ (T.ref = .lref ∧ S.ref ≠ .lref ∧ IsConst T.t ∧ IsVolatile T.t ∧ Lvl true S.t T.t) := by
  by_cases hv : T.ref = .lref → S.ref = .lref ∨ ¬ IsVolatile T.t
  · rw [(C07_exactly_qualification_conversion_partial S T h ha d hd h16 hv).1]
    refine ⟨.inl, fun h => h.elim id ?_⟩
    rintro ⟨a, b, _, c, _⟩
    rcases hv a with h | h
    · exact absurd h b
    · exact absurd c h
  · have hT : T.ref = .lref := Classical.byContradiction fun h => hv fun h' => absurd h' h
    have hS : S.ref ≠ .lref := fun h => hv fun _ => .inl h
    have hV : IsVolatile T.t := Classical.byContradiction fun h => hv fun _ => .inr h
    have hd' := (depth_iff _ _).1 hd
    -- an lvalue of the same type
    have key := (C07_exactly_qualification_conversion_partial ⟨.lref, S.t⟩ T h ha d hd h16 (fun _ => .inl rfl)).1
    have hm : MayInit ⟨.lref, S.t⟩ T ↔ Lvl true S.t T.t := by
      unfold MayInit; rw [hT]; exact ⟨fun h => h.1, fun h => ⟨h, .inl rfl⟩⟩
    have hm' : ¬ MayInit S T := by
      unfold MayInit; rw [hT]
      rintro ⟨_, h | h⟩
      · exact hS h
      · exact h.2 hV
    obtain ⟨b, e, hb⟩ := compatible_iff S T (by omega) (by rw [← SameModConst.arity h]; omega)
    obtain ⟨b', e', hb'⟩ := compatible_iff ⟨.lref, S.t⟩ T (by show S.t.pointerArity < 16; omega) (by rw [← SameModConst.arity h]; omega)
    rw [e', hm] at key
    rw [e]
    have hc := isConst_iff T.t
    have r : CompatOk S T ↔ CompatOk ⟨.lref, S.t⟩ T ∧ IsConst T.t := by
      constructor
      · rintro ⟨a, b, c, d, e⟩
        exact ⟨⟨fun _ => .inl rfl, fun h => (by rw [hT] at h; cases h), c, d, e⟩, hc.1 ((a hT).resolve_left hS)⟩
      · rintro ⟨⟨a, b, c, d, e⟩, k⟩
        exact ⟨fun _ => .inr (hc.2 k), fun h => (by rw [hT] at h; cases h), c, d, e⟩
    simp only [Option.some.injEq] at key ⊢
    rw [hb, r, ← hb', key]
    constructor
    · rintro ⟨a, b⟩; exact .inr ⟨hT, hS, b, hV, a⟩
    · rintro (h | ⟨_, _, a, _, b⟩)
      · exact absurd h hm'
      · exact ⟨b, a⟩

theorem refused_false {S T : RType} (h : Refused S T) : compatible (describe S) (describe T) = some false := by
  have hc : T.t.isConst = true ↔ IsConst T.t := isConst_iff _
  unfold compatible
  rw [describe_isLref, describe_isLref, describe_isConst, describe_isRref]
  rcases h with ⟨a, b, c⟩ | ⟨a, b⟩
  · have : T.t.isConst = false := by
      cases hx : T.t.isConst with
      | false => rfl
      | true => exact absurd (hc.1 hx) c
    simp [a, b, this]
  · simp [a, b]

/-- the target's outermost compared level is 16 or more -/
private def Beyond (T : RType) : Prop := ¬ T.t.pointerArity < (if T.ref = .none then 17 else 16)

private theorem beyond_true {S T : RType} (hm : S.t.pointerArity < 65536) (hn : T.t.pointerArity < 65536) (h : Beyond T)
    (e : compatible (describe S) (describe T) = some true) :
    S.t.pointerArity = T.t.pointerArity ∧ ¬ Refused S T ∧ ∀ k, k < 16 → S.t.constBitset.testBit k = T.t.constBitset.testBit k := by
  have hr : ¬ Refused S T := fun h => by rw [refused_false h] at e; cases e
  have ha : effArity S T = T.t.pointerArity := by
    refine Classical.byContradiction fun h => ?_
    rw [compatible_levels S T hm hn h] at e; cases e
  have h16 : 16 ≤ if T.ref = .none then T.t.pointerArity - 1 else T.t.pointerArity := by
    unfold Beyond at h
    by_cases hr : T.ref = .none <;> simp only [hr, if_true, if_false] at h ⊢ <;> omega
  have hs : S.t.pointerArity = T.t.pointerArity := by
    unfold effArity at ha
    split at ha
    · rename_i hx
      simp only [Bool.and_eq_true] at hx
      have := arity_arr hx.1
      split at h16 <;> omega
    · exact ha
  exact ⟨hs, hr, (compatible_deep S T _ hs rfl hn h16 hr).1.1 e⟩

/-- C09, all depths: compatibility is transitive (for types of one decay) when the middle type is a reference, or the last one is a
    value and the middle one is not an array value; except that from 16 levels on a temporary may not end as a non-const lvalue. -/
theorem C09_transitive_deep (A B C : RType) (hAB : SameDecay A.t B.t) (hBC : SameDecay B.t C.t)
    (wa : NoFuncArray A.t) (wb : NoFuncArray B.t) (wc : NoFuncArray C.t)
    (dA : A.t.pointerArity < 65536) (dB : B.t.pointerArity < 65536) (dC : C.t.pointerArity < 65536)
    (hyp : B.ref ≠ .none ∨ (C.ref = .none ∧ ∀ n t, B.t ≠ .arr n t))
    (hd : C.t.pointerArity < 16 ∨ A.ref = .lref ∨ C.ref ≠ .lref ∨ IsConst C.t)
    (h1 : compatible (describe A) (describe B) = some true)
    (h2 : compatible (describe B) (describe C) = some true) :
    compatible (describe A) (describe C) = some true := by
  by_cases hC : Beyond C
  · obtain ⟨e2, r2, b2⟩ := beyond_true dB dC hC h2
    have hB : Beyond B := by
      unfold Beyond at hC ⊢
      rw [e2]
      rcases hyp with h | ⟨h, -⟩
      · rw [if_neg h]; split at hC <;> omega
      · rw [if_pos h] at hC; split <;> omega
    obtain ⟨e1, r1, b1⟩ := beyond_true dA dB hB h1
    have h16 : 16 ≤ if C.ref = .none then C.t.pointerArity - 1 else C.t.pointerArity := by
      unfold Beyond at hC
      by_cases hr : C.ref = .none <;> simp only [hr, if_true, if_false] at hC ⊢ <;> omega
    refine (compatible_deep A C _ (e1.trans e2) rfl dC h16 ?_).1.2 fun k hk => (b1 k hk).trans (b2 k hk)
    rintro (⟨a, b, c⟩ | ⟨a, b⟩)
    · rcases hd with hd | hd | hd | hd
      · unfold Beyond at hC; split at hC <;> omega
      · exact a hd
      · exact hd b
      · exact c hd
    · rcases hyp with h | ⟨h, -⟩
      · cases hB' : B.ref with
        | none => exact h hB'
        | lref => exact r2 (.inr ⟨hB', b⟩)
        | rref => exact r1 (.inr ⟨a, hB'⟩)
      · rw [b] at h; cases h
  · simp only [Beyond, Classical.not_not] at hC
    obtain ⟨b, e, hb⟩ := compatible_fits B C dB dC hC
    rw [h2] at e; cases e
    have bc := hb.1 rfl
    obtain ⟨b', e', hb'⟩ := compatible_fits A C dA dC hC
    rw [e', hb'.2 ?_]
    by_cases hB : Beyond B
    · obtain ⟨e1, r1, b1⟩ := beyond_true dA dB hB h1
      have nB : B.t.isArray = false := by
        cases h : B.t.isArray with
        | false => rfl
        | true =>
          have := arity_arr h
          unfold Beyond at hB
          split at hB <;> omega
      have nA : A.t.isArray = false := by
        cases h : A.t.isArray with
        | false => rfl
        | true =>
          have := arity_arr h
          unfold Beyond at hB
          split at hB <;> omega
      have aBC : B.t.pointerArity = C.t.pointerArity := by
        have := bc.arity
        simpa only [effArity, nB, Bool.false_and, Bool.false_eq_true, if_false] using this
      have eA : effArity A C = C.t.pointerArity := by
        simp only [effArity, nA, Bool.false_and, Bool.false_eq_true, if_false]; omega
      have hr : C.ref = .none ∧ C.t.pointerArity = 16 := by
        unfold Beyond at hB
        refine Classical.byContradiction fun h => ?_
        by_cases hr : C.ref = .none
        · rw [if_pos hr] at hC
          split at hB
          · omega
          · exact h ⟨hr, by omega⟩
        · rw [if_neg hr] at hC
          split at hB <;> omega
      refine ⟨by simp [hr.1], by simp [hr.1], by simp [nA], eA, .inr ?_⟩
      rcases bc.masks with ⟨_, h⟩ | h
      · rw [bc.arity] at h; omega
      · rw [bc.arity, if_pos hr.1, hr.2] at h
        rw [eA, if_pos hr.1, hr.2]
        exact h.congr (fun i hi => by simp [effBit, nA, nB, b1 i (by omega)]) (fun _ _ => rfl)
    · simp only [Beyond, Classical.not_not] at hB
      obtain ⟨b, e, hb⟩ := compatible_fits A B dA dB hB
      rw [h1] at e; cases e
      exact compat_trans A B C hAB hBC wa wb wc hyp (hb.1 rfl) bc

/-- The exception is real: at 16 levels a temporary pointer may be passed as a reference to a const pointer, and that as a reference to a non-const
    one, but not the temporary itself. -/
theorem C09_deep_exception : ∃ A B C : RType, SameDecay A.t B.t ∧ SameDecay B.t C.t ∧ Depth C.t 16 ∧ B.ref = .lref ∧ C.ref = .lref ∧
    compatible (describe A) (describe B) = some true ∧ compatible (describe B) (describe C) = some true ∧
    compatible (describe A) (describe C) = some false := by
  refine ⟨⟨.none, ptrs Ex.nn 16 Ex.int⟩, ⟨.lref, .ptr Ex.kk (ptrs Ex.nn 15 Ex.int)⟩, ⟨.lref, ptrs Ex.nn 16 Ex.int⟩,
    (fullDecay_iff _ _).1 (by decide), (fullDecay_iff _ _).1 (by decide), (depth_iff _ _).2 rfl, rfl, rfl, by decide, by decide, by decide⟩

/-- For types that have nothing to do with each other it is not transitive: `int &`, `int (&)[3]`, `int *const &`. -/
theorem C09_unrelated_not_transitive : ∃ A B C : RType, ¬ SameDecay A.t B.t ∧ SameDecay B.t C.t ∧ B.ref = .lref ∧
    compatible (describe A) (describe B) = some true ∧ compatible (describe B) (describe C) = some true ∧
    compatible (describe A) (describe C) = some false := by
  refine ⟨⟨.lref, Ex.int⟩, ⟨.lref, .arr 3 Ex.int⟩, ⟨.lref, .ptr Ex.kk Ex.int⟩, fun h => ?_, (fullDecay_iff _ _).1 (by decide), rfl, by decide,
    by decide, by decide⟩
  have := (fullDecay_iff _ _).2 h
  revert this; decide

-- 20-fold pointers through references, and 16-fold ones copied out of one
example : (fun A B C => compatible (describe A) (describe B) = some true ∧ compatible (describe B) (describe C) = some true ∧
    compatible (describe A) (describe C) = some true)
    (⟨.lref, ptrs Ex.nn 20 Ex.int⟩ : RType) ⟨.lref, ptrs Ex.kk 4 (ptrs Ex.nn 16 Ex.int)⟩ ⟨.none, ptrs Ex.nn 20 Ex.int⟩ ∧
  (fun A B C => compatible (describe A) (describe B) = some true ∧ compatible (describe B) (describe C) = some true ∧
    compatible (describe A) (describe C) = some true)
    (⟨.rref, ptrs Ex.nn 16 Ex.int⟩ : RType) ⟨.rref, ptrs Ex.nn 16 Ex.int⟩ ⟨.none, ptrs Ex.kk 16 Ex.cint⟩ := by decide

-- `int ****************` and a reference to the same with const everywhere
example : Depth (ptrs Ex.nn 16 Ex.int) 16 ∧ ¬ NeverBinds ⟨.none, ptrs Ex.nn 16 Ex.int⟩ ⟨.lref, ptrs Ex.kk 16 Ex.cint⟩ ∧
    compatible (describe ⟨.none, ptrs Ex.nn 16 Ex.int⟩) (describe ⟨.lref, ptrs Ex.kk 16 Ex.cint⟩) = none := by
  refine ⟨(depth_iff _ _).2 rfl, ?_, by decide⟩
  rintro (⟨_, _, h⟩ | ⟨h, _⟩)
  · exact h (.ptr _ _)
  · cases h
-- a 20-fold pointer is passed by value to one with other outer levels
example : compatible (describe ⟨.none, ptrs Ex.nn 4 (ptrs Ex.kk 16 Ex.int)⟩) (describe ⟨.none, ptrs Ex.kk 4 (ptrs Ex.kk 16 Ex.int)⟩) = some true := by
  decide

end Rtti.Props
