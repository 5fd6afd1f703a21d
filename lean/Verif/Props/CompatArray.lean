import Verif.Props.CompatDeep
import Verif.Lemmas.ValueFits
/-! C07, C08 with arrays: what `compatible` answers for any two types unless 17 pointer levels have to be compared. -/
set_option autoImplicit false
namespace Rtti.Props
open Rtti Spec Val

/-- `s` is `t` with arrays taken for objects of some kind, const if their elements are; what the elements are does not show -/
inductive Seen : CType → CType → Prop
  | base (b : Base) (q : CV) : Seen (.base b q) (.base b q)
  | ptr (q : CV) {t s : CType} : Seen t s → Seen (.ptr q t) (.ptr q s)
  | arr (n : Nat) (e : CType) (b : Base) (q : CV) : (q.c = true ↔ IsConst e) → Seen (.arr n e) (.base b q)

/-- the type `compatible` takes the source for. Arrays decay to pointers, which are const for a reference (a pointer to the first
    element is no lvalue). -/
inductive TakenFor (S T : RType) : CType → Prop
  | plain {s : CType} : (∀ n e, S.t ≠ .arr n e) ∨ (∃ n e, T.t = .arr n e) → Seen S.t s → TakenFor S T s
  | decays (n : Nat) (e : CType) (p q : CV) (t : CType) (b : Base) (q' : CV) : S.t = .arr n e → T.t = .ptr p t →
      (q.c = true ↔ T.ref ≠ .none) → (q'.c = true ↔ IsConst e) → TakenFor S T (.ptr q (.base b q'))
  | object (n : Nat) (e : CType) (b' : Base) (p : CV) (b : Base) (q : CV) : S.t = .arr n e → T.t = .base b' p →
      (q.c = true ↔ IsConst e ∨ T.ref ≠ .none) → TakenFor S T (.base b q)

theorem Seen.same {t s : CType} (h : Seen t s) : ArrayFree s ∧ s.pointerArity = t.pointerArity ∧ s.isConst = t.isConst ∧
    ∀ i, s.constBitsetHelper i = t.constBitsetHelper i := by
  induction h with
  | base b q => exact ⟨.base _ _, rfl, rfl, fun _ => rfl⟩
  | ptr q _ ih =>
    obtain ⟨h1, h2, h3, h4⟩ := ih
    exact ⟨.ptr _ h1, by simp [CType.pointerArity, h2], rfl, fun i => by simp [CType.constBitsetHelper, h4]⟩
  | arr n e b q h =>
    have : q.c = (CType.arr n e).isConst := by
      rw [Bool.eq_iff_iff, h, isConst_iff]
      exact ⟨.arr n, fun h => by cases h; assumption⟩
    refine ⟨.base _ _, rfl, this, fun i => ?_⟩
    simp only [CType.constBitsetHelper, this]

theorem Seen.bits {t s : CType} (h : Seen t s) : s.constBitset = t.constBitset := by
  unfold CType.constBitset; rw [h.same.2.1, h.same.2.2.2]

theorem Seen.exists (t : CType) : ∃ s, Seen t s := by
  induction t with
  | base b q => exact ⟨_, .base b q⟩
  | ptr q t ih => obtain ⟨s, h⟩ := ih; exact ⟨_, .ptr q h⟩
  | arr n e _ => exact ⟨_, .arr n e e.baseType ⟨e.isConst, false⟩ (isConst_iff e)⟩

private theorem isArray_iff (t : CType) : t.isArray = true ↔ ∃ n e, t = .arr n e := by
  cases t <;> simp [CType.isArray]

private theorem compatOk_seen (S T : RType) {s t : CType} (hs : TakenFor S T s) (ht : Seen T.t t) :
    CompatOk S T ↔ (S.t.isArray = true → T.t.isArray = true → T.t.sizeOf ≤ S.t.sizeOf) ∧ CompatOk ⟨S.ref, s⟩ ⟨T.ref, t⟩ := by
  obtain ⟨t1, t2, t3, t4⟩ := ht.same
  have t5 := ht.bits
  have key : effArity S T = effArity ⟨S.ref, s⟩ ⟨T.ref, t⟩ ∧ effBit S T = effBit ⟨S.ref, s⟩ ⟨T.ref, t⟩ ∧ ArrayFree s := by
    cases hs with
    | plain hp hs =>
      obtain ⟨s1, s2, s3, s4⟩ := hs.same
      have s5 := hs.bits
      have a1 : effArity S T = S.t.pointerArity := by
        unfold effArity
        rcases hp with hp | ⟨n, e, hp⟩
        · have : S.t.isArray = false := by
            cases h : S.t.isArray with
            | false => rfl
            | true => obtain ⟨n, e, h⟩ := (isArray_iff _).1 h; exact absurd h (hp n e)
          simp [this]
        · simp [hp, CType.isPointer]
      have a2 : effBit S T = S.t.constBitset.testBit := by
        funext i
        unfold effBit
        rcases hp with hp | ⟨n, e, hp⟩
        · have : S.t.isArray = false := by
            cases h : S.t.isArray with
            | false => rfl
            | true => obtain ⟨n, e, h⟩ := (isArray_iff _).1 h; exact absurd h (hp n e)
          simp [this]
        · simp [hp, CType.isArray]
      refine ⟨?_, ?_, s1⟩
      · rw [a1]; simp [effArity, s1.isArray, s2]
      · rw [a2]; funext i; simp [effBit, s1.isArray, s5]
    | decays n e p q t' b q' hS hT hq hq' =>
      have hA : q'.c = (CType.arr n e).isConst := by
        rw [Bool.eq_iff_iff, hq', isConst_iff]
        exact ⟨.arr n, fun h => by cases h; assumption⟩
      refine ⟨?_, ?_, .ptr _ (.base _ _)⟩
      · simp [effArity, hS, hT, CType.isArray, CType.isPointer, CType.pointerArity]
      · funext i
        simp only [effBit, effArity, hS, hT, CType.isArray, CType.isPointer, CType.pointerArity, CType.constBitset, CType.constBitsetHelper, hA,
          Bool.and_true, Bool.not_false, Bool.true_and, if_true, Nat.zero_add, Bool.false_and, Bool.or_false, Nat.sub_self]
        by_cases hr : T.ref = .none
        · have : q.c = false := by
            cases h : q.c with
            | false => rfl
            | true => exact absurd hr (hq.1 h)
          simp [hr, this]
        · rw [if_pos (hq.2 hr)]
          simp only [ne_eq, hr, not_false_eq_true, decide_true, Bool.true_and]
          cases (CType.arr n e).isConst <;> rcases i with _ | _ | i <;> simp [Nat.testBit_succ, Nat.testBit_zero]
    | object n e b' p b q hS hT hq =>
      have hA : q.c = ((CType.arr n e).isConst || decide (T.ref ≠ .none)) := by
        rw [Bool.eq_iff_iff, hq, Bool.or_eq_true, isConst_iff, decide_eq_true_iff]
        refine ⟨fun h => h.imp_left (.arr n), fun h => h.imp_left fun h => by cases h; assumption⟩
      refine ⟨?_, ?_, .base _ _⟩
      · simp [effArity, hS, hT, CType.isArray, CType.isPointer, CType.pointerArity]
      · funext i
        simp only [effBit, effArity, hS, hT, CType.isArray, CType.isPointer, CType.pointerArity, CType.constBitset, CType.constBitsetHelper, hA]
        by_cases hr : T.ref = .none <;> cases (CType.arr n e).isConst <;> rcases i with _ | i <;>
          simp [hr, Nat.testBit_succ, Nat.testBit_zero]
  obtain ⟨k1, k2, k3⟩ := key
  constructor
  · intro c
    refine ⟨c.size, ⟨fun h => ?_, c.rref, by simp [k3.isArray], ?_, ?_⟩⟩
    · have := c.lref h
      simpa only [t3] using this
    · rw [← k1, c.arity, ← t2]
    · have := c.masks
      rwa [k1, k2, ← t5] at this
  · rintro ⟨hz, c⟩
    refine ⟨fun h => ?_, c.rref, hz, ?_, ?_⟩
    · have := c.lref h
      simpa only [t3] using this
    · rw [k1, c.arity, ← t2]
    · rw [k1, k2, ← t5]
      exact c.masks

theorem TakenFor.exists (S T : RType) : ∃ s, TakenFor S T s := by
  by_cases h : (∀ n e, S.t ≠ .arr n e) ∨ ∃ n e, T.t = .arr n e
  · obtain ⟨s, hs⟩ := Seen.exists S.t
    exact ⟨s, .plain h hs⟩
  · rw [not_or] at h
    cases hS : S.t with
    | base b q => exact absurd (fun n e => by rw [hS]; nofun) h.1
    | ptr q t => exact absurd (fun n e => by rw [hS]; nofun) h.1
    | arr n e =>
      cases hT : T.t with
      | base b q =>
        exact ⟨_, .object n e b q b ⟨e.isConst || decide (T.ref ≠ .none), false⟩ hS hT
          (by rw [Bool.or_eq_true, isConst_iff, decide_eq_true_iff])⟩
      | ptr p t =>
        exact ⟨_, .decays n e p ⟨decide (T.ref ≠ .none), false⟩ t e.baseType ⟨e.isConst, false⟩ hS hT (by simp) (isConst_iff _)⟩
      | arr m f => exact absurd ⟨m, f, hT⟩ h.2

/-- C07, C08: unless 17 pointer levels have to be compared there is always an answer, and it is "yes" exactly if a source array is not
    smaller than a target array and C++ would do it if arrays were single objects, const as their elements are. The types of the
    elements are not compared, which is the flaw of `C08_false`. (From 17 levels on: `C10_terminates_iff`, `C10_deep_answer`.) -/
theorem C08_answer (S T : RType) {m d : Nat} (hm : Depth S.t m) (hS : m < 65536) (hd : Depth T.t d) (hT : d < 16 ∨ d = 16 ∧ T.ref = .none)
    {s t : CType} (hs : TakenFor S T s) (ht : Seen T.t t) :
    (compatible (describe S) (describe T) = some true ↔
      (∀ n e m f, S.t = .arr n e → T.t = .arr m f → T.t.sizeOf ≤ S.t.sizeOf) ∧ Binds ⟨S.ref, s⟩ ⟨T.ref, t⟩) ∧
    compatible (describe S) (describe T) ≠ none := by
  rw [depth_iff] at hm hd
  obtain ⟨b, e, hb⟩ := compatible_fits S T (by omega) (by omega) (by split <;> rename_i h <;> simp only [h] at hT <;> simp at hT <;> omega)
  refine ⟨?_, by rw [e]; nofun⟩
  have hs' : ArrayFree s := by
    cases hs with
    | plain _ hs => exact hs.same.1
    | decays => exact .ptr _ (.base _ _)
    | object => exact .base _ _
  rw [e, Option.some.injEq, hb, compatOk_seen S T hs ht, compatOk_binds ⟨S.ref, s⟩ ⟨T.ref, t⟩ hs' ht.same.1]
  refine and_congr ⟨fun h n e m f h1 h2 => h (by simp [h1, CType.isArray]) (by simp [h2, CType.isArray]), fun h h1 h2 => ?_⟩ Iff.rfl
  obtain ⟨n, e, h1⟩ := (isArray_iff _).1 h1
  obtain ⟨m, f, h2⟩ := (isArray_iff _).1 h2
  exact h n e m f h1 h2

/-- `s` is reached through `k` pointers, none of them inside an array -/
inductive Through : CType → Nat → CType → Prop
  | here (t : CType) : Through t 0 t
  | ptr (q : CV) {t s : CType} {k : Nat} : Through t k s → Through (.ptr q t) (k + 1) s

private theorem Through.seen {t s u : CType} {k : Nat} (h : Through t k u) (hs : Seen t s) :
    ∃ v, Reach s k v ∧ (IsConst v ↔ IsConst u) := by
  induction h generalizing s with
  | here t => exact ⟨s, .here s, by rw [← isConst_iff, ← isConst_iff, hs.same.2.2.1]⟩
  | ptr q _ ih =>
    cases hs with
    | ptr _ hs =>
      obtain ⟨v, h1, h2⟩ := ih hs
      exact ⟨v, .ptr q h1, h2⟩

/-- C08 outside arrays of pointers, for any types unless 17 levels are compared: nothing const through the source is writable through the target,
    at any level that is not inside an array (the elements of the outermost array included). -/
theorem C08_outside_arrays (S T : RType) {m d : Nat} (hm : Depth S.t m) (hS : m < 65536) (hd : Depth T.t d) (hT : d < 16 ∨ d = 16 ∧ T.ref = .none)
    (hp : (∀ n e, S.t ≠ .arr n e) ∨ (∃ n e, T.t = .arr n e)) (h : compatible (describe S) (describe T) = some true)
    (k : Nat) (s t : CType) (hs : Through S.t k s) (ht : Through T.t k t) (h0 : k = 0 → T.ref ≠ .none) (hc : IsConst s) : IsConst t := by
  obtain ⟨s', hs'⟩ := Seen.exists S.t
  obtain ⟨t', ht'⟩ := Seen.exists T.t
  have b := ((C08_answer S T hm hS hd hT (.plain hp hs') ht').1.1 h).2
  obtain ⟨v, r1, c1⟩ := hs.seen hs'
  obtain ⟨w, r2, c2⟩ := ht.seen ht'
  exact c2.1 (b.keep k v w r1 r2 h0 (c1.2 hc))

/-- C08 for an array given where a pointer is expected: the elements stay const. -/
theorem C08_array_to_pointer (S T : RType) (n : Nat) (e : CType) (q : CV) (t : CType) (hS : S.t = .arr n e) (hT : T.t = .ptr q t)
    {d : Nat} (hd : Depth T.t d) (hl : d < 16 ∨ d = 16 ∧ T.ref = .none) (h : compatible (describe S) (describe T) = some true) (hc : IsConst e) : IsConst t ∧ Depth t 0 := by
  obtain ⟨t', ht'⟩ := Seen.exists T.t
  have b := ((C08_answer S T ((depth_iff _ 0).2 (by simp [hS, CType.pointerArity])) (by omega) hd hl
    (.decays n e q ⟨decide (T.ref ≠ .none), false⟩ t e.baseType ⟨e.isConst, false⟩ hS hT (by simp) (isConst_iff _)) ht').1.1 h).2
  rw [hT] at ht'
  cases ht' with
  | ptr _ ht' =>
    obtain ⟨v, r2, c2⟩ := Through.seen (.here t) ht'
    have := b.keep 1 _ _ (.ptr _ (.here _)) (.ptr _ r2) (by simp) ((isConst_iff _).1 ((isConst_iff e).2 hc))
    obtain ⟨d, d1, d2⟩ := b.depth
    rw [depth_iff] at d1 d2
    refine ⟨c2.1 this, (depth_iff _ _).2 ?_⟩
    have := ht'.same.2.1
    simp only [CType.pointerArity] at d1 d2
    omega

-- `int const *[3]` is taken for the same as `int *[3]`; `int const[4]` may be read as `int const *`, not as `int *`
example : TakenFor ⟨.lref, .arr 3 (.ptr Ex.nn Ex.cint)⟩ ⟨.lref, .arr 3 (.ptr Ex.nn Ex.int)⟩ (.base Ex.intB Ex.nn) ∧
    Seen (.arr 3 (.ptr Ex.nn Ex.int)) (.base Ex.intB Ex.nn) :=
  ⟨.plain (.inr ⟨_, _, rfl⟩) (.arr _ _ _ _ ⟨nofun, nofun⟩), .arr _ _ _ _ ⟨nofun, nofun⟩⟩
example : compatible (describe ⟨.lref, .arr 4 Ex.cint⟩) (describe ⟨.none, .ptr Ex.nn Ex.cint⟩) = some true ∧
    compatible (describe ⟨.lref, .arr 4 Ex.cint⟩) (describe ⟨.none, .ptr Ex.nn Ex.int⟩) = some false ∧
    compatible (describe ⟨.lref, .arr 4 Ex.int⟩) (describe ⟨.lref, .ptr Ex.nn Ex.int⟩) = some false ∧
    compatible (describe ⟨.lref, .arr 4 Ex.int⟩) (describe ⟨.lref, .ptr Ex.kk Ex.int⟩) = some true := by decide
example : Through (.ptr Ex.nn (.arr 3 Ex.cint)) 1 (.arr 3 Ex.cint) ∧ IsConst (.arr 3 Ex.cint) ∧
    compatible (describe ⟨.lref, .ptr Ex.nn (.arr 3 Ex.cint)⟩) (describe ⟨.lref, .ptr Ex.nn (.arr 3 Ex.cint)⟩) = some true :=
  ⟨.ptr _ (.here _), .arr _ (.base _ _), by decide⟩

end Rtti.Props
