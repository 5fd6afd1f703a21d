import Verif.Model.TypeTraits
import Verif.Props.Flags
import Verif.Props.EqualExact
/-
C79: the type traits, and how the description of a type agrees with them.
-/
set_option autoImplicit false
namespace Rtti.Props
open Rtti Spec Rtti.Val

/-! ### specification -/

/-- no const and no volatile at any level -/
inductive NoCv : CType → Prop
  | base (b : Base) : NoCv (.base b ⟨false, false⟩)
  | ptr {t : CType} : NoCv t → NoCv (.ptr ⟨false, false⟩ t)
  | arr (n : Nat) {t : CType} : NoCv t → NoCv (.arr n t)

/-- `n` pointers in front of the type, none of them qualified -/
inductive Pointers (t : CType) : Nat → CType → Prop
  | zero : Pointers t 0 t
  | succ {n : Nat} {u : CType} : Pointers t n u → Pointers t (n + 1) (.ptr ⟨false, false⟩ u)

/-- what is behind all the outer pointers -/
inductive Behind : CType → CType → Prop
  | base (b : Base) (q : CV) : Behind (.base b q) (.base b q)
  | arr (n : Nat) (t : CType) : Behind (.arr n t) (.arr n t)
  | ptr (q : CV) {t u : CType} : Behind t u → Behind (.ptr q t) u

/-! ### theorems -/

/-- C79: `remove_all_cv` leaves no qualifier at any level, changes nothing else, and identifies exactly the types that differ in
    qualifiers only. -/
theorem C79_remove_all_cv (S T : RType) :
    NoCv T.removeAllCv.t ∧ SameModCv T.t T.removeAllCv.t ∧ T.removeAllCv.ref = T.ref ∧
    (S.removeAllCv = T.removeAllCv ↔ S.ref = T.ref ∧ SameModCv S.t T.t) ∧
    (NoCv T.t → T.removeAllCv = T) := by
  have e : ∀ T : RType, T.removeAllCv = ⟨T.ref, T.t.removeAllCv⟩ := fun T => by
    rcases T with ⟨r, t⟩; cases r <;> rfl
  have no : ∀ t : CType, NoCv t.removeAllCv := by
    intro t; induction t with
    | base b q => exact .base b
    | ptr q t ih => exact .ptr ih
    | arr n t ih => exact .arr n ih
  have same : ∀ t : CType, SameModCv t t.removeAllCv := by
    intro t; induction t with
    | base b q => exact .base b _ _
    | ptr q t ih => exact .ptr _ _ ih
    | arr n t ih => exact .arr n ih
  have idem : ∀ {t : CType}, NoCv t → t.removeAllCv = t := by
    intro t h; induction h with
    | base => rfl
    | ptr _ ih => simp only [CType.removeAllCv, ih]
    | arr n _ ih => simp only [CType.removeAllCv, ih]
  have key : ∀ s t : CType, s.removeAllCv = t.removeAllCv ↔ SameModCv s t := by
    intro s t
    constructor
    · intro h
      induction s generalizing t with
      | base b q => cases t <;> simp [CType.removeAllCv] at h; subst h; exact .base _ _ _
      | ptr q s ih => cases t <;> simp [CType.removeAllCv] at h; exact .ptr _ _ (ih _ h)
      | arr n s ih =>
        cases t with
        | arr m t => simp [CType.removeAllCv] at h; obtain ⟨rfl, h⟩ := h; exact .arr _ (ih _ h)
        | base => simp [CType.removeAllCv] at h
        | ptr => simp [CType.removeAllCv] at h
    · intro h; induction h <;> simp_all [CType.removeAllCv]
  rw [e S, e T]
  refine ⟨no _, same _, rfl, ?_, fun h => ?_⟩
  · rw [RType.mk.injEq, key]
  · rw [idem h]

/-- C79: `add_pointers` adds that many pointers, to the type referred to if there are any to add. -/
theorem C79_add_pointers (T : RType) (n : Nat) :
    (n = 0 → T.addPointers n = T) ∧ (0 < n → (T.addPointers n).ref = .none) ∧ Pointers T.t n (T.addPointers n).t ∧
    ∀ d, Depth T.t d → Depth (T.addPointers n).t (d + n) := by
  have key : ∀ n (T : RType), ∃ u, Pointers T.t n u ∧ (T.addPointers n).t = u ∧ (0 < n → (T.addPointers n).ref = .none) := by
    intro n
    induction n with
    | zero => intro T; exact ⟨_, .zero, rfl, fun h => absurd h (by omega)⟩
    | succ n ih =>
      intro T
      obtain ⟨u, h1, h2, h3⟩ := ih T.addPointer
      have mv : ∀ {n : Nat} {t u : CType}, Pointers (.ptr ⟨false, false⟩ t) n u → Pointers t (n + 1) u := by
        intro n t u h
        induction h with
        | zero => exact .succ .zero
        | succ _ ih => exact .succ ih
      refine ⟨u, mv h1, h2, fun _ => ?_⟩
      cases n with
      | zero => rfl
      | succ n => exact h3 (by omega)
  obtain ⟨u, h1, h2, h3⟩ := key n T
  refine ⟨fun h => h ▸ rfl, h3, h2 ▸ h1, fun d hd => ?_⟩
  rw [h2]
  clear h2 h3
  induction h1 with
  | zero => exact hd
  | succ _ ih => exact .ptr _ ih

/-- C79: `remove_all_pointers` of a type is what is behind all its pointers, without the outermost qualifiers; of a reference it is the
    reference. Removing and adding as many pointers as there were gives the type back, apart from qualifiers. -/
theorem C79_remove_all_pointers (T : RType) :
    (T.ref ≠ .none → T.removeAllPointers = T) ∧
    (T.ref = .none → T.removeAllPointers.ref = .none ∧ (∃ u, Behind T.t u ∧ SameTop u T.removeAllPointers.t) ∧
      ¬IsConst T.removeAllPointers.t ∧ ¬IsVolatile T.removeAllPointers.t ∧
      ∀ d, Depth T.t d → SameModCv T.t (T.removeAllPointers.addPointers d).t) := by
  have nc : ∀ t : CType, ¬IsConst t.removeCv ∧ ¬IsVolatile t.removeCv := by
    intro t
    induction t with
    | base => exact ⟨nofun, nofun⟩
    | ptr => exact ⟨nofun, nofun⟩
    | arr n t ih =>
      refine ⟨fun h => ?_, fun h => ?_⟩
      · cases h with | arr _ h => exact ih.1 h
      · cases h with | arr _ h => exact ih.2 h
  have st : ∀ t : CType, SameTop t t.removeCv := fun t => (sameTop_iff _ _).2 (by
    induction t with
    | base => rfl
    | ptr => rfl
    | arr n t ih => simp only [CType.removeCv]; rw [← ih])
  have sm : ∀ {s t : CType}, SameTop s t → SameModCv s t := by
    have rfl' : ∀ t : CType, SameModCv t t := by
      intro t; induction t with
      | base b q => exact .base b _ _
      | ptr q t ih => exact .ptr _ _ ih
      | arr n t ih => exact .arr n ih
    intro s t h; induction h with
    | base => exact .base _ _ _
    | ptr _ _ t => exact .ptr _ _ (rfl' t)
    | arr n _ ih => exact .arr n ih
  have beh : ∀ t : CType, ∃ u, Behind t u ∧ SameTop u t.removeAllPointers := by
    intro t; induction t with
    | base b q => exact ⟨_, .base b q, st _⟩
    | ptr q t ih => obtain ⟨u, h1, h2⟩ := ih; exact ⟨u, .ptr q h1, h2⟩
    | arr n t => exact ⟨_, .arr n t, st _⟩
  have no : ∀ t : CType, ¬IsConst t.removeAllPointers ∧ ¬IsVolatile t.removeAllPointers := by
    intro t; induction t with
    | base b q => exact nc _
    | ptr q t ih => exact ih
    | arr n t => exact nc _
  have back : ∀ {t : CType} {d : Nat}, Depth t d → ∀ {u}, Pointers t.removeAllPointers d u → SameModCv t u := by
    intro t d h
    induction h with
    | base b q => intro u h; cases h; exact .base b _ _
    | arr n t => intro u h; cases h; exact sm (st _)
    | ptr q _ ih =>
      intro u h
      cases h with
      | succ h => exact .ptr _ _ (ih h)
  refine ⟨fun h => ?_, fun h => ?_⟩
  · rcases T with ⟨r, t⟩; cases r <;> simp_all [RType.removeAllPointers]
  · have e : T.removeAllPointers = ⟨.none, T.t.removeAllPointers⟩ := by simp [RType.removeAllPointers, h]
    rw [e]
    exact ⟨rfl, beh _, (no _).1, (no _).2, fun d hd => back hd (C79_add_pointers ⟨.none, T.t.removeAllPointers⟩ d).2.2.1⟩

/-- C79: `array_length` is the number of elements that are not arrays, and the size of the type that many times theirs. -/
theorem C79_array_length (t : CType) (n : Nat) (e : CType) (h : Flat t n e) (s : Nat) (hs : Size e s) :
    RType.arrayLength ⟨.none, t⟩ = n ∧ Size t (RType.arrayLength ⟨.none, t⟩ * s) ∧
    RType.arrayLength ⟨.lref, t⟩ = 1 ∧ RType.arrayLength ⟨.rref, t⟩ = 1 := by
  have key : RType.arrayLength.go t = n ∧ Size t (RType.arrayLength.go t * s) := by
    induction h with
    | base => exact ⟨rfl, by simpa [RType.arrayLength.go] using hs⟩
    | ptr => exact ⟨rfl, by simpa [RType.arrayLength.go] using hs⟩
    | arr n h ih =>
      obtain ⟨h1, h2⟩ := ih hs
      refine ⟨by simp only [RType.arrayLength.go, h1], ?_⟩
      simp only [RType.arrayLength.go, Nat.mul_assoc]
      exact .arr n h2
  exact ⟨key.1, key.2, rfl, rfl⟩

theorem baseOf_eq (t : CType) : t.baseOf = .base t.baseType ⟨false, false⟩ := by
  have ext : ∀ t : CType, t.removeAllExtents.baseType = t.baseType := by
    intro t; induction t with
    | base => rfl
    | ptr => rfl
    | arr n t ih => exact ih
  have key : ∀ (k : Nat) (t : CType), SizeOf.sizeOf t ≤ k → t.baseOf = .base t.baseType ⟨false, false⟩ := by
    intro k
    induction k with
    | zero => intro t h; cases t <;> simp at h
    | succ k ih =>
      intro t h
      cases t with
      | base => simp only [CType.baseOf, CType.baseType]
      | ptr q t =>
        simp only [CType.ptr.sizeOf_spec] at h
        simp only [CType.baseOf, CType.baseType]; exact ih t (by omega)
      | arr n t =>
        simp only [CType.arr.sizeOf_spec] at h
        have := CType.removeAllExtents_size t
        simp only [CType.baseOf, CType.baseType]
        rw [ih _ (by omega), ext]
  exact key _ t (Nat.le_refl _)

/-- C79: `base_type` is what is at the bottom of all references, pointers and arrays, unqualified. -/
theorem C79_base_type (T : RType) (b : Base) : T.baseOf = .base b ⟨false, false⟩ ↔ Over T.t b := by
  unfold RType.baseOf
  rw [baseOf_eq]
  constructor
  · intro h
    cases h
    generalize T.t = t
    induction t with
    | base b q => exact .base b q
    | ptr q t ih => exact .ptr q ih
    | arr n t ih => exact .arr n ih
  · intro h
    generalize T.t = t at h
    induction h with
    | base => rfl
    | ptr _ _ ih => exact ih
    | arr _ _ ih => exact ih

/-- C79: `is_lvalue_const_reference` and `is_class_ptr` say what they are named for. -/
theorem C79_questions (T : RType) :
    (T.isLvalueConstReference = true ↔ T.ref = .lref ∧ IsConst T.t) ∧
    (T.isClassPtr = true ↔ ∃ q b q', T.t = .ptr q (.base b q') ∧ b.kind = .cls) := by
  have ic : ∀ t : CType, t.isConst = true ↔ IsConst t := by
    intro t; induction t with
    | base b q =>
      rcases q with ⟨c, v⟩
      simp only [CType.isConst]
      exact ⟨fun h => by subst h; exact .base b v, fun h => by cases h; rfl⟩
    | ptr q t =>
      rcases q with ⟨c, v⟩
      simp only [CType.isConst]
      exact ⟨fun h => by subst h; exact .ptr v t, fun h => by cases h; rfl⟩
    | arr n t ih =>
      simp only [CType.isConst]
      exact ⟨fun h => .arr n (ih.1 h), fun h => by cases h with | arr _ h => exact ih.2 h⟩
  refine ⟨by simp [RType.isLvalueConstReference, ic], ?_⟩
  rcases T with ⟨r, t⟩
  cases t with
  | base b q => simp [RType.isClassPtr, CType.isPointer]
  | arr n t => simp [RType.isClassPtr, CType.isPointer]
  | ptr q t =>
    cases t with
    | base b q' =>
      simp only [RType.isClassPtr, CType.isPointer, CType.removePointer, CType.isClassType, Bool.true_and, decide_eq_true_eq]
      exact ⟨fun h => ⟨q, b, q', rfl, h⟩, by rintro ⟨_, _, _, e, h⟩; cases e; exact h⟩
    | ptr => simp [RType.isClassPtr, CType.isPointer, CType.removePointer, CType.isClassType]
    | arr => simp [RType.isClassPtr, CType.isPointer, CType.removePointer, CType.isClassType]

/-- C79: what the description of a type calls a pointer to a class is what the trait does. Missing (`_partial`): pointers to arrays
    (`C79_class_pointer_false`). -/
theorem C79_class_pointer_partial (T : RType) (h : T.t.pointerArity < 65536) (ha : ∀ q n t, T.t ≠ .ptr q (.arr n t)) :
    (describe T).isClassPtr = T.isClassPtr := by
  rw [Bool.eq_iff_iff, (C06_pointers T h).1, (C79_questions T).2]
  constructor
  · rintro ⟨q, t, e, hd, b, hb, hk⟩
    cases hd with
    | base b' q' => cases hb; exact ⟨q, _, _, e, hk⟩
    | arr n t => exact absurd e (ha _ _ _)
  · rintro ⟨q, b, q', e, hk⟩
    exact ⟨q, _, e, .base b q', b, .base b q', hk⟩

/-- C79 is false: a pointer to an array of class objects is described as a pointer to a class object. -/
theorem C79_class_pointer_false : ∃ (q : CV) (n : Nat) (b : Base) (q' : CV),
    (describe ⟨.none, .ptr q (.arr n (.base b q'))⟩).isClassPtr = true ∧ RType.isClassPtr ⟨.none, .ptr q (.arr n (.base b q'))⟩ = false :=
  ⟨⟨false, false⟩, 3, ExV.B, ⟨false, false⟩, by decide +kernel, by decide +kernel⟩

/-- C79: a type that is no array is described as comparable exactly if comparing two variants with objects of the type does not answer
    "not comparable". Missing (`_partial`): arrays (`C79_comparable_false`), types with 16 pointers and more. -/
theorem C79_comparable_partial {E : Env} (C : Cmp) {v w : Vnt} (sv : Sound E v) (sw : Sound E w) {u : CType} {a a' : Addr}
    (st : Stands v u a) (st' : Stands w u a') (hu : Shallow u) (ha : ∀ n t, u ≠ .arr n t) (r : Ref) :
    (describe ⟨r, u⟩).flags.testBit 23 = true ↔ equal E C v w ≠ .throw .runtimeError := by
  have hf := (C06_flags ⟨r, u⟩).2.1 23 _ rfl
  obtain ⟨h1, h2, h3⟩ := C40_object_partial C sv sw st st' hu ((sameTop_iff _ _).2 rfl) ha
  rw [hf]
  constructor
  · intro h
    by_cases haa : a = a'
    · rw [h2 h haa]; simp
    · rw [h3 h haa]; split <;> simp
  · intro h
    exact Classical.byContradiction fun k => h (h1 k)

/-- C79 is false: arrays are described as comparable even if their elements are not, and comparing them ends the program. -/
theorem C79_comparable_false : ∃ (E : Env) (C : Cmp) (v w : Vnt) (n : Nat) (e : CType) (a a' : Addr), Sound E v ∧ Sound E w ∧
    Stands v (.arr n e) a ∧ Stands w (.arr n e) a' ∧ ¬Comparable e ∧ (describe ⟨.none, .arr n e⟩).flags.testBit 23 = true ∧
    equal E C v w = .terminate := by
  obtain ⟨_, E, C, v, w, n, e, a, a', h1, h2, h3, h4, h5, h6⟩ := C40_array_terminate_false
  have hf := (C06_flags ⟨.none, .arr n e⟩).2.1 23 _ rfl
  exact ⟨E, C, v, w, n, e, a, a', h1, h2, h3, h4, h5, hf.2 (by rintro b q h; cases h), h6⟩

/-- C79: a type that is neither pointer nor array nor function is described as copyable exactly if `to` can copy it. Missing
    (`_partial`): pointers (`C79_copyable_false`). -/
theorem C79_copyable_partial (b : Base) (q : CV) (r : Ref) (h : b.kind ≠ .func) :
    (describe ⟨r, .base b q⟩).flags.testBit 18 = true ↔ copyable (.base b q) = true := by
  rw [(C06_flags ⟨r, .base b q⟩).2.1 18 _ rfl]
  simp only [copyable, CType.fullDecay, CType.decay, h, if_false, CType.removeAllCv]
  constructor
  · rintro ⟨b', hb, hc⟩; cases hb; exact hc
  · intro hc; exact ⟨b, .base b q, hc⟩

/-- C79 is false: a pointer to a class that cannot be copied is described as a type that cannot be copied; it can. -/
theorem C79_copyable_false : ∃ (q q' : CV) (b : Base), b.kind = .cls ∧ (describe ⟨.none, .ptr q (.base b q')⟩).flags.testBit 18 = false ∧
    copyable (.ptr q (.base b q')) = true :=
  ⟨⟨false, false⟩, ⟨false, false⟩, { ExV.B with traits := { ExV.all with copyC := false } }, by decide, by decide +kernel, by decide⟩

/-! ### non-vacuity -/

/-- `char const *const volatile[2][3]` and references to it -/
def ExT.t : CType := .arr 2 (.arr 3 (.ptr ⟨true, true⟩ (.base ⟨7, .other, 1, ExV.all⟩ ⟨true, false⟩)))

open ExT in
example : (⟨.rref, t⟩ : RType).removeAllCv =
      ⟨.rref, .arr 2 (.arr 3 (.ptr ⟨false, false⟩ (.base ⟨7, .other, 1, ExV.all⟩ ⟨false, false⟩)))⟩ ∧
    (⟨.lref, t⟩ : RType).addPointers 2 = ⟨.none, .ptr ⟨false, false⟩ (.ptr ⟨false, false⟩ t)⟩ ∧
    ((⟨.lref, t⟩ : RType).addPointers 2).removeAllPointers =
      ⟨.none, .arr 2 (.arr 3 (.ptr ⟨false, false⟩ (.base ⟨7, .other, 1, ExV.all⟩ ⟨true, false⟩)))⟩ ∧
    RType.arrayLength ⟨.none, t⟩ = 6 ∧ (⟨.lref, t⟩ : RType).isLvalueConstReference = true ∧
    (⟨.lref, t⟩ : RType).baseOf = .base ⟨7, .other, 1, ExV.all⟩ ⟨false, false⟩ := by
  refine ⟨by decide, by decide, by decide, by decide, by decide, (C79_base_type _ _).2 (.arr _ (.arr _ (.ptr _ (.base _ _))))⟩

open ExT in
example : Flat t 6 (.ptr ⟨true, true⟩ (.base ⟨7, .other, 1, ExV.all⟩ ⟨true, false⟩)) ∧
    Size (.ptr ⟨true, true⟩ (.base ⟨7, .other, 1, ExV.all⟩ ⟨true, false⟩)) 8 := ⟨.arr 2 (.arr 3 (.ptr _ _)), .ptr _ _⟩

open ExQ in
/-- the hypotheses of `C79_class_pointer_partial`, `C79_comparable_partial` and `C79_copyable_partial` are met -/
example : (∀ q n t, CType.ptr ⟨false, false⟩ (ExV.cls ExV.B) ≠ .ptr q (.arr n t)) ∧
    (describe ⟨.none, .ptr ⟨false, false⟩ (ExV.cls ExV.B)⟩).isClassPtr = true ∧
    Sound ExV.env r1 ∧ Stands r1 (ExV.cls ExV.B) 5000 ∧ (describe ⟨.none, ExV.cls ExV.B⟩).flags.testBit 23 = true ∧
    (describe ⟨.none, ExV.cls ExV.B⟩).flags.testBit 18 = true :=
  ⟨nofun, by decide +kernel, sound1, s1, by decide +kernel, by decide +kernel⟩

end Rtti.Props
