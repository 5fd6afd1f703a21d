import Verif.Model.SelfType
import Verif.Props.ValueEdge
import Verif.Spec.Invoke
/-! C88: what a variant says of itself. -/
set_option autoImplicit false
namespace Rtti.Props
open Rtti Spec Val

private theorem stands_of {v : Vnt} {h : Held} (e : v.held = some h) : ∃ a, Stands v h.u a := by
  obtain ⟨w, t⟩ := h
  cases w with
  | true => exact ⟨_, .ref t e⟩
  | false =>
    cases t with
    | arr n el => exact ⟨_, .array n el e⟩
    | base b q =>
      rcases Nat.lt_or_ge 16 (CType.base b q).sizeOf with k | k
      · exact ⟨_, .heap _ e (by simp) k⟩
      · exact ⟨_, .inPlace _ e (by simp) k⟩
    | ptr q t =>
      rcases Nat.lt_or_ge 16 (CType.ptr q t).sizeOf with k | k
      · exact ⟨_, .heap _ e (by simp) k⟩
      · exact ⟨_, .inPlace _ e (by simp) k⟩

/-- C88: `typeId()` is the id of the type of the object the variant stands for, never that of a reference; it is the invalid id exactly
    for an empty variant. -/
theorem C88_type (v : Vnt) :
    (∀ T, typeId v = some T ↔ T.ref = .none ∧ ∃ a, Stands v T.t a) ∧
    (typeId v = none ↔ ∀ t a, ¬Stands v t a) ∧ (isEmpty v = true ↔ typeId v = none) := by
  unfold typeId isEmpty
  cases e : v.held with
  | none =>
    have no : ∀ t a, ¬Stands v t a := fun t a s => by
      obtain ⟨h, e', -⟩ := s.held
      rw [e] at e'; cases e'
    exact ⟨fun T => ⟨nofun, fun ⟨_, a, s⟩ => absurd s (no _ _)⟩, ⟨fun _ => no, fun _ => rfl⟩, by simp⟩
  | some h =>
    obtain ⟨a, s⟩ := stands_of e
    refine ⟨fun T => ⟨fun k => ?_, fun ⟨k, a', s'⟩ => ?_⟩, ⟨nofun, fun k => absurd s (k _ _)⟩, by simp⟩
    · cases k; exact ⟨rfl, a, s⟩
    · obtain ⟨r, t⟩ := T
      obtain rfl := (s.unique s').1
      cases k; rfl

/-- C88: a variant can be read as the type it says: `is<T &>` holds, `ref<T>` and `data<T>` give the very object, const or not. -/
theorem C88_read {rank : TypeId → Nat} {E : Env} (r : Reachable rank E.w) {v : Vnt} (sd : Sound E v) {t : CType}
    (ht : typeId v = some ⟨.none, t⟩) (hp : t.pointerArity < 65536) :
    ∃ a, Stands v t a ∧ a ≠ 0 ∧ reference E v .ref t = .ok a ∧ reference E v .refConst t = .ok a ∧
      (∀ const, data E v const t = .ok a) ∧ (∀ const, is E v const ⟨.lref, if const then addConst t else t⟩ = .ok true) := by
  obtain ⟨-, a, s⟩ := ((C88_type v).1 _).1 ht
  have self : SameDecay t t := (fullDecay_iff t t).1 rfl
  have ar : (∀ n e, t ≠ .arr n e) ∨ ∃ n e, t = .arr n e := by
    cases t with
    | arr n e => exact .inr ⟨_, _, rfl⟩
    | _ => exact .inl (by simp)
  have rf : Refers E v t a := .same t a s self ar
  have vt : ∀ at', v.type at' = match at' with | .none => ⟨.none, t⟩ | .lref => ⟨.lref, t⟩ | .rref => ⟨.rref, t⟩ | .lrefConst => ⟨.lref, addConst t⟩ := by
    intro at'
    obtain ⟨h, e, rfl⟩ := s.held
    rw [vtype e]; cases at' <;> rfl
  have one : reference E v .ref t = .ok a := by
    refine ((C42_reference_exact r sd s .ref t hp hp).1 a).2 ⟨fun k => k.2.2.1 self, ?_, rf⟩
    rw [vt]; exact C09_reflexive _
  have two : reference E v .refConst t = .ok a := by
    refine ((C42_reference_exact r sd s .refConst t hp hp).1 a).2 ⟨fun k => k.2.2.1 ?_, ?_, rf⟩
    · rw [← fullDecay_iff]; exact (addConst_fullDecay t).symm
    · rw [vt]; exact C09_reflexive _
  refine ⟨a, s, sd.object _ _ s, one, two, fun c => ?_, fun c => ?_⟩
  · cases c <;> simp [data, one, two]
  · have hq : (⟨.lref, if c then addConst t else t⟩ : RType).t.pointerArity < 65536 := by
      cases c
      · exact hp
      · simp only [if_true]; rw [addConst_arity]; exact hp
    have sm : SameDecay t (⟨.lref, if c then addConst t else t⟩ : RType).t := by
      rw [← fullDecay_iff]
      cases c
      · rfl
      · exact (addConst_fullDecay t).symm
    refine (C42_is_exact r sd s c ⟨.lref, if c then addConst t else t⟩ hp hq).1.2 ⟨fun k => k.2.2.1 sm, ?_, .inl sm⟩
    rw [vt]
    cases c <;> exact C09_reflexive _

/-- C88: `metaClass()` is the class registered for the object the variant stands for or points to (as the object itself tells, if it has
    `classInfo()`), null if it is none or not registered, undefined exactly for a null pointer to a class with `classInfo()`. -/
theorem C88_class {rank : TypeId → Nat} {E : Env} (r : Reachable rank E.w) (v : Vnt) :
    (metaClass E v = .ub ↔ NullObject E v) ∧
    (∀ d, metaClass E v = .ok (some d) ↔ ¬NullObject E v ∧ ClassOf E v d) ∧
    (metaClass E v = .ok none ↔ ¬NullObject E v ∧ ∀ d, ¬ClassOf E v d) := by
  have h0 : E.w.find 0 = none := by simp [World.find, (World.Inv.reachable r).valid0]
  unfold metaClass
  rcases classInfo_cases E v with ⟨b, x, d, e⟩ | ⟨no, e⟩
  · rw [e]
    unfold objectInfo
    have nu : NullObject E v ↔ x = 0 ∧ E.info b = true := by
      constructor
      · rintro ⟨b', d', i⟩
        obtain ⟨rfl, rfl⟩ := d.unique d'
        exact ⟨rfl, i⟩
      · rintro ⟨rfl, i⟩; exact ⟨b, d, i⟩
    have co : ∀ p, ClassOf E v p ↔ E.w.find (if E.info b then E.dyn b x else (E.tid b, x)).1 = some p := by
      intro p
      constructor
      · rintro ⟨b', x', t, i, d', c, f⟩
        obtain ⟨rfl, rfl⟩ := d.unique d'
        unfold Complete at c
        split at c
        · rename_i k; rw [if_pos k, ← c]; exact f
        · rename_i k; rw [if_neg k, ← c]; exact f
      · intro f
        refine ⟨b, x, _, (if E.info b then E.dyn b x else (E.tid b, x)).2, d, ?_, f⟩
        unfold Complete
        cases E.info b <;> rfl
    by_cases i : E.info b = true
    · by_cases z : x = 0
      · simp [i, z, nu, Ret.bind]
      · simp only [i, z, nu, co, if_true, if_false, Ret.bind, false_and, not_false_eq_true, true_and]
        cases E.w.find (E.dyn b x).1 <;> simp
    · have i' : E.info b = false := by simpa using i
      simp only [i', nu, co, Bool.false_eq_true, if_false, Ret.bind, and_false, not_false_eq_true, true_and]
      cases E.w.find (E.tid b) <;> simp
  · rw [e]
    have nu : ¬NullObject E v := fun ⟨_, d, _⟩ => no _ _ d
    have co : ∀ p, ¬ClassOf E v p := fun p ⟨_, _, _, _, d, _⟩ => no _ _ d
    simp [Ret.bind, h0, nu, co]

/-- C88 is false for arrays: one of `char const *`s says it were of `char *`s. -/
theorem C88_array_false : ∃ (v : Vnt) (n : Nat) (e : CType), v.held = some ⟨false, .arr n e⟩ ∧ ArrayFree e ∧
    typeId v = some ⟨.none, .arr n (.ptr ⟨false, false⟩ (.base Ex.intB ⟨false, false⟩))⟩ ∧ e = .ptr ⟨false, false⟩ (.base Ex.intB ⟨true, false⟩) :=
  ⟨⟨some ⟨false, .arr 2 (.ptr ⟨false, false⟩ (.base Ex.intB ⟨true, false⟩))⟩, 1000, 5000⟩, _, _, rfl, by repeat constructor, rfl, rfl⟩

/-! ### cases -/

-- a `D` by value: read as `D`, its class
example : typeId ExV.vD = some ⟨.none, ExV.cls ExV.D⟩ ∧ isEmpty ExV.vD = false ∧ reference ExV.env ExV.vD .ref (ExV.cls ExV.D) = .ok 5000 ∧
    (∃ p, metaClass ExV.env ExV.vD = .ok (some p)) := ⟨rfl, rfl, by decide, _, rfl⟩
-- `std::cref(d)`; a pointer
example : typeId ExV.vCD = some ⟨.none, ExV.ccls ExV.D⟩ ∧ typeId ExV.vPD = some ⟨.none, .ptr ⟨false, false⟩ (ExV.cls ExV.D)⟩ ∧
    metaClass ExV.env ExV.vI = .ok none := ⟨rfl, rfl, by decide⟩

end Rtti.Props
