import Verif.Lemmas.ValueTo
import Verif.Examples.Worlds
/-
C42, C43, C44: looking into a variant.
-/
set_option autoImplicit false
namespace Rtti.Props
open Rtti Spec Val

namespace ExV

/-- all traits -/
def all : Traits := ⟨true, true, true, true, true, true, true, true, true, true, true⟩
def B : Base := ⟨101, .cls, 8, all⟩
def L : Base := ⟨102, .cls, 24, all⟩
def R : Base := ⟨103, .cls, 24, all⟩
def D : Base := ⟨104, .cls, 48, all⟩
/-- a class that cannot be copied -/
def N : Base := ⟨105, .cls, 8, { all with copyC := false }⟩
def cls (b : Base) : CType := .base b ⟨false, false⟩
def ccls (b : Base) : CType := .base b ⟨true, false⟩

/-- the diamond; no `classInfo()` -/
def env : Env where
  w := Ex.diamond
  tid b := b.id - 100
  info _ := false
  dyn _ _ := (0, 0)
  load a := if a = 1000 then 5000 else if a = 2000 then 6000 else 0
  conv s t := if s = Ex.int ∧ t = cls N then some ⟨1, .functor, fun a => if a = 1000 then .returns false false else .throws⟩ else none
  copyThrows _ _ := false

/-- `D` by value, on the heap at 5000 -/
def vD : Vnt := ⟨some ⟨false, cls D⟩, 1000, 5000⟩
/-- `std::cref(d)`, `d` at 5000 -/
def vCD : Vnt := ⟨some ⟨true, ccls D⟩, 1000, 5000⟩
/-- `D *` pointing to 5000 -/
def vPD : Vnt := ⟨some ⟨false, .ptr ⟨false, false⟩ (cls D)⟩, 1000, 5000⟩
/-- `int` in place -/
def vI : Vnt := ⟨some ⟨false, Ex.int⟩, 1000, 5000⟩
/-- a null `D *` -/
def vNull : Vnt := ⟨some ⟨false, .ptr ⟨false, false⟩ (cls D)⟩, 3000, 0⟩

theorem standsD : Stands vD (cls D) 5000 := .heap (cls D) rfl (by simp [cls]) (by decide)
theorem standsPD : Stands vPD (.ptr ⟨false, false⟩ (cls D)) 1000 := .inPlace (.ptr ⟨false, false⟩ (cls D)) rfl (by simp) (by decide)

theorem soundD : Sound env vD := by
  refine ⟨by decide, by decide, fun t a h => ?_, fun b q a h => ?_⟩
  · rw [(h.unique standsD).2]; decide
  · obtain ⟨e, _⟩ := h.unique standsD; cases e; decide

theorem soundPD : Sound env vPD := by
  refine ⟨by decide, by decide, fun t a h => ?_, fun b q a h => ?_⟩
  · rw [(h.unique standsPD).2]; decide
  · obtain ⟨e, _⟩ := h.unique standsPD; cases e

end ExV

/-! ### C42 -/

/-- C42: `ref<T>`, `cref<T>`, `rref<T>` in each of their overloads succeed exactly when the type shown by the variant fits
    and there is something to refer to, refer to just that, and throw `bad_variant_cast` otherwise. Missing (`_partial`):
    types with 16 pointers and more (`C10_false`) and null pointers to classes with `classInfo()` (`C42_null_object_false`). -/
theorem C42_reference_partial {rank : TypeId → Nat} {E : Env} (r : Reachable rank E.w) {v : Vnt} (sd : Sound E v)
    {u : CType} {a₀ : Addr} (st : Stands v u a₀) (hn : ¬NullObject E v) (acc : Access) (t : CType) (hu : Shallow u) (ht : Shallow t) :
    (∀ a, reference E v acc t = .ok a ↔ Fits (v.type acc.attr) (acc.target t) ∧ Refers E v t a) ∧
    (reference E v acc t = .throw .badVariantCast ↔ ¬(Fits (v.type acc.attr) (acc.target t) ∧ ∃ a, Refers E v t a)) := by
  obtain ⟨h, e, rfl⟩ := st.held
  have hh : Shallow h.t := by unfold Shallow at *; rwa [← u_arity]
  unfold reference
  rw [vtype e]
  have key := metafuncCast_spec r sd e acc.attr (acc.target t) hh (shallow_target ht)
  simp only [refers_target] at key
  rcases key with ⟨_, h2, _⟩ | ⟨a, h1, h2, h3, h4⟩ | ⟨h1, h2⟩
  · exact absurd h2 hn
  · rw [h1]
    refine ⟨fun a' => ⟨fun h => by (cases h; exact ⟨h2, h3⟩), fun h => by rw [h3.unique r sd h.2]⟩, ?_⟩
    exact ⟨nofun, fun h => absurd ⟨h2, a, h3⟩ h⟩
  · rw [h1]
    constructor
    · intro a
      refine ⟨nofun, fun ⟨g1, g2⟩ => ?_⟩
      rcases h2 with h2 | h2
      · exact absurd g1 h2
      · exact absurd g2 (h2 a)
    · simp only [true_iff]
      rintro ⟨g1, a, g2⟩
      rcases h2 with h2 | h2
      · exact h2 g1
      · exact h2 a g2

/-- C42: without arrays, "fits" is the rule of the language for initialising references. -/
theorem C42_fits_without_arrays {v : Vnt} {u : CType} {a₀ : Addr} (st : Stands v u a₀) (acc : Access) (t : CType)
    (hu : Shallow u) (ht : Shallow t) (fu : ArrayFree u) (ft : ArrayFree t) :
    Fits (v.type acc.attr) (acc.target t) ↔ Binds (v.type acc.attr) (acc.target t) := by
  obtain ⟨h, e, rfl⟩ := st.held
  rw [vtype e]
  refine fits_iff_binds _ _ ?_ (shallow_target ht) (type_arrayFree _ fu) (target_arrayFree ft)
  unfold Shallow; rw [type_arity]; exact hu

/-- C42: an empty variant refers to nothing. -/
theorem C42_empty (E : Env) (v : Vnt) (h : v.held = none) (acc : Access) (t : CType) (const : Bool) (T : RType) :
    reference E v acc t = .throw .badVariantCast ∧ data E v const t = .ok 0 ∧ is E v const T = .ok false := by
  simp [reference, metafuncCast, data, is, metafuncIs, h]

/-- C42: `data<T>` is null exactly when `ref<T>` throws `bad_variant_cast`, and otherwise is the address `ref<T>` refers to;
    `is<T &>` is then true. -/
theorem C42_data_partial {rank : TypeId → Nat} {E : Env} (r : Reachable rank E.w) {v : Vnt} (sd : Sound E v)
    {u : CType} {a₀ : Addr} (st : Stands v u a₀) (hn : ¬NullObject E v) (const : Bool) (t : CType) (hu : Shallow u) (ht : Shallow t) :
    (data E v const t = .ok 0 ↔ reference E v (if const then .refConst else .ref) t = .throw .badVariantCast) ∧
    (∀ a, a ≠ 0 → (data E v const t = .ok a ↔ reference E v (if const then .refConst else .ref) t = .ok a)) ∧
    (∃ a, data E v const t = .ok a) ∧
    (data E v const t ≠ .ok 0 → is E v const ⟨.lref, if const then addConst t else t⟩ = .ok true) := by
  obtain ⟨h, e, rfl⟩ := st.held
  have hh : Shallow h.t := by unfold Shallow at *; rwa [← u_arity]
  have hT : (Access.target (if const then .refConst else .ref) t) = ⟨.lref, if const then addConst t else t⟩ := by
    cases const <;> rfl
  have hA : (Access.attr (if const then .refConst else .ref)) = (if const then .lrefConst else .lref) := by cases const <;> rfl
  unfold data reference is
  rw [vtype e, vtype e, hT, hA]
  have hsh : Shallow (⟨.lref, if const then addConst t else t⟩ : RType).t := by
    rw [← hT]; exact shallow_target ht
  have key := metafuncCast_spec r sd e (if const then .lrefConst else .lref) ⟨.lref, if const then addConst t else t⟩ hh hsh
  rcases key with ⟨_, h2, _⟩ | ⟨a, h1, h2, h3, h4⟩ | ⟨h1, h2⟩
  · exact absurd h2 hn
  · rw [h1]
    refine ⟨by simp [h4], by simp, ⟨a, rfl⟩, fun _ => ?_⟩
    rcases metafuncIs_spec r e (if const then .lrefConst else .lref) ⟨.lref, if const then addConst t else t⟩ hh hsh with
      ⟨_, g⟩ | ⟨b, g1, g2⟩
    · exact absurd g hn
    · rw [g1, g2.2]
      refine ⟨h2, ?_⟩
      have der : ∀ {c : Base} {x : Addr}, Subobject E v c x → Derives E v c := by
        rintro c x ⟨d, e, i, fs, k1, k2, _⟩
        exact ⟨d, e, i, k1, World.LeftPath.reaches (World.Inv.reachable r) k2⟩
      cases h3 with
      | same u' a s hd _ => obtain ⟨rfl, _⟩ := st.unique s; exact .inl hd
      | decayed n el x s hd _ => obtain ⟨k, _⟩ := st.unique s; rw [k]; exact .inl hd
      | sub b c q r' x a s hb hc hne ht' hs h0 => exact .inr ⟨b, c, x, hb, hc, hne, der hs, .inl ⟨q, r', s, ht'⟩⟩
      | subPtr b c q q' r1 r2 x a s hb hc hne ht' hs h0 _ =>
        exact .inr ⟨b, c, x, hb, hc, hne, der hs, .inr ⟨q, q', r1, r2, s, ht'⟩⟩
  · rw [h1]
    refine ⟨by simp, fun a ha => by simp [ha.symm], ⟨0, rfl⟩, by simp⟩

/-- C42: `is<T>` is true exactly when the type shown fits and is the same type, or a (pointer to a) class derived from the one
    asked for. -/
theorem C42_is_partial {rank : TypeId → Nat} {E : Env} (r : Reachable rank E.w) {v : Vnt}
    {u : CType} {a₀ : Addr} (st : Stands v u a₀) (hn : ¬NullObject E v) (const : Bool) (T : RType) (hu : Shallow u) (ht : Shallow T.t) :
    ∃ b, is E v const T = .ok b ∧
      (b = true ↔ Fits (v.type (if const then .lrefConst else .lref)) T ∧ (SameDecay u T.t ∨ UpIs E v T.t)) := by
  obtain ⟨h, e, rfl⟩ := st.held
  have hh : Shallow h.t := by unfold Shallow at *; rwa [← u_arity]
  unfold is
  rw [vtype e]
  rcases metafuncIs_spec r e (if const then .lrefConst else .lref) T hh ht with ⟨_, g⟩ | h
  · exact absurd g hn
  · exact h

/-- C42: asked for its own type, a variant that is neither empty nor an array answers with the object itself, whether it is
    stored in the variant, on the heap, or referred to. -/
theorem C42_own_type {E : Env} {v : Vnt} (sd : Sound E v) {u : CType} {a : Addr} (st : Stands v u a)
    (ha : ∀ n e, u ≠ .arr n e) : reference E v .ref u = .ok a ∧ data E v false u = .ok a ∧ is E v false ⟨.lref, u⟩ = .ok true := by
  obtain ⟨h, e, rfl⟩ := st.held
  have h0 := sd.object _ _ st
  have hA := (not_arr_iff _).1 ha
  have hacc := st.access.1 hA
  have h1 : reference E v .ref h.u = .ok a := by
    simp [reference, vtype e, Held.type, Access.attr, Access.target, metafuncCast, e, compat, C09_reflexive, Ret.bind, hacc, h0, hA]
  refine ⟨h1, by simp [data, h1], ?_⟩
  simp [is, vtype e, Held.type, metafuncIs, e, compat, C09_reflexive, Ret.bind]

/-- C42: a class object asked for as a base class answers with the base class subobject; const is respected. -/
theorem C42_base_class {rank : TypeId → Nat} {E : Env} (r : Reachable rank E.w) {v : Vnt} (sd : Sound E v) (hn : ¬NullObject E v)
    {b c : Base} {q : CV} {x a : Addr} (st : Stands v (.base b q) x) (hb : b.kind = .cls) (hc : c.kind = .cls) (hne : b ≠ c)
    (hs : Subobject E v c a) (h0 : a ≠ 0) :
    reference E v .refConst (.base c ⟨false, false⟩) = .ok a ∧
    (q.c = false → reference E v .ref (.base c ⟨false, false⟩) = .ok a) ∧
    (q.c = true → reference E v .ref (.base c ⟨false, false⟩) = .throw .badVariantCast) := by
  have sh : ∀ (b : Base) (q : CV), Shallow (.base b q) := fun _ _ => by simp [Shallow, CType.pointerArity]
  obtain ⟨h, e, hu⟩ := st.held
  have hR : Refers E v (.base c ⟨false, false⟩) a := .sub b c q _ x a st hb hc hne rfl hs h0
  have bd : ∀ (q1 q2 : CV), (q1.c = true → q2.c = true) → Binds ⟨.lref, .base b q1⟩ ⟨.lref, .base c q2⟩ := by
    intro q1 q2 hq
    refine ⟨⟨0, .base _ _, .base _ _⟩, fun _ => .inl rfl, nofun, ?_, ?_⟩
    · intro k s t hs ht _ hc
      cases hs; cases ht
      obtain ⟨c1, v1⟩ := q1
      obtain ⟨c2, v2⟩ := q2
      cases hc
      simp at hq; subst hq
      exact .base _ _
    · intro k s t hs ht _ _ _ j t' hj
      cases hs
      omega
  refine ⟨?_, fun hq => ?_, fun hq => ?_⟩
  · refine ((C42_reference_partial r sd st hn .refConst _ (sh _ _) (sh _ _)).1 a).2 ⟨?_, hR⟩
    refine (C42_fits_without_arrays st .refConst _ (sh _ _) (sh _ _) (.base _ _) (.base _ _)).2 ?_
    rw [vtype e]
    simp only [Access.attr, Held.type, ← hu, addConst, Access.target]
    exact bd _ _ (fun _ => rfl)
  · refine ((C42_reference_partial r sd st hn .ref _ (sh _ _) (sh _ _)).1 a).2 ⟨?_, hR⟩
    refine (C42_fits_without_arrays st .ref _ (sh _ _) (sh _ _) (.base _ _) (.base _ _)).2 ?_
    rw [vtype e]
    simp only [Access.attr, Held.type, ← hu, Access.target]
    exact bd _ _ (by simp [hq])
  · refine (C42_reference_partial r sd st hn .ref _ (sh _ _) (sh _ _)).2.2 ?_
    rintro ⟨hf, _⟩
    rw [C42_fits_without_arrays st .ref _ (sh _ _) (sh _ _) (.base _ _) (.base _ _), vtype e] at hf
    simp only [Access.attr, Held.type, ← hu, Access.target] at hf
    obtain ⟨c1, v1⟩ := q
    simp at hq; subst hq
    have := hf.keep 0 _ _ (.here _) (.here _) (by simp) (.base _ _)
    cases this

open ExV in
example : reference env vD .ref (cls R) = .ok 5008 ∧ reference env vD .ref (cls D) = .ok 5000 ∧
    data env vD true (cls B) = .ok 5000 ∧ data env vD false Ex.int = .ok 0 ∧
    reference env vCD .ref (cls R) = .throw .badVariantCast ∧ data env vCD true (cls R) = .ok 5008 := by decide +kernel

open ExV in
/-- the hypotheses of `C42_base_class` are met by the diamond -/
example : ∃ a, Subobject env vD R a ∧ a ≠ 0 ∧ ¬NullObject env vD := by
  refine ⟨5008, ?_, by decide, fun ⟨b, _, h⟩ => by cases h⟩
  rcases imp_cases (E := env) Ex.diamond_reachable vD R with ⟨⟨b, _, h⟩, _⟩ | ⟨_, a, b, h1, _, _, h2, _⟩
  · cases h
  · exact (h2 5008 (by decide)).1 (by
      have : castImp env vD R = .ok 5008 := by decide +kernel
      rw [this] at h1; cases h1; rfl)

/-- C42 is false for a null pointer to a class with `classInfo()`: `ref`, `data` and `is` call it through the null pointer.
    (Asked for a pointer to another class.) -/
theorem C42_null_object_false : ∃ (E : Env) (v : Vnt) (t : CType), Reachable id E.w ∧ Sound E v ∧
    NullObject E v ∧ data E v false t = .ub ∧ is E v false ⟨.lref, t⟩ = .ub := by
  have st : Stands ExV.vNull (.ptr ⟨false, false⟩ (ExV.cls ExV.D)) 3000 := .inPlace (.ptr ⟨false, false⟩ (ExV.cls ExV.D)) rfl (by simp) (by decide)
  refine ⟨{ ExV.env with info := fun _ => true }, ExV.vNull, .ptr ⟨false, false⟩ (ExV.cls ExV.B), Ex.diamond_reachable, ?_, ?_,
    by decide +kernel, by decide +kernel⟩
  · refine ⟨by decide, by decide, fun t a h => ?_, fun b q a h => ?_⟩
    · rw [(h.unique st).2]; decide
    · obtain ⟨e, _⟩ := h.unique st; cases e
  · refine ⟨ExV.D, ?_, rfl⟩
    have := Designates.pointer (E := { ExV.env with info := fun _ => true }) ExV.D ⟨false, false⟩ ⟨false, false⟩ 3000 rfl st
    exact this

/-- A variant holding `D *` hands out a `B *&` to its own pointer: a `B *` that is no `D` can then be stored where a `D *` is
    expected. -/
theorem C42_pointer_alias : ∃ (E : Env) (v : Vnt) (b c : Base), Reachable id E.w ∧ Sound E v ∧ b ≠ c ∧
    reference E v .ref (.ptr ⟨false, false⟩ (.base b ⟨false, false⟩)) =
      reference E v .ref (.ptr ⟨false, false⟩ (.base c ⟨false, false⟩)) ∧
    reference E v .ref (.ptr ⟨false, false⟩ (.base b ⟨false, false⟩)) = .ok v.self :=
  ⟨ExV.env, ExV.vPD, ExV.D, ExV.B, Ex.diamond_reachable, ExV.soundPD, by decide, by decide +kernel, by decide +kernel⟩

/-! ### C43 -/

/-- C43: `to<T>` copies an object of the same type, else converts to a base class, else runs the converter, else throws
    `bad_variant_convert`; nothing else happens. Missing: types with 16 pointers and more, null pointers to classes with
    `classInfo()`. -/
theorem C43_to_partial {rank : TypeId → Nat} {E : Env} (r : Reachable rank E.w) {v : Vnt} {u : CType} {a₀ : Addr}
    (st : Stands v u a₀) (hn : ¬NullObject E v) (const : Bool) (t : CType) (hu : Shallow u) (ht : Shallow t)
    (hta : ∀ n e, t ≠ .arr n e) (htf : ∀ b q, t = .base b q → b.kind ≠ .func) (R : Ret Made) :
    to E v const t = R ↔ Gives E v (v.type (if const then .lrefConst else .lref)) t R := by
  obtain ⟨h, e, rfl⟩ := st.held
  have hh : Shallow h.t := by unfold Shallow at *; rwa [← u_arity]
  unfold to
  rw [vtype e]
  rcases metafuncTo_spec r e (if const then .lrefConst else .lref) t hh ht ((not_arr_iff _).1 hta) htf with ⟨_, g⟩ | g
  · exact absurd g hn
  · exact ⟨fun h => h ▸ g, fun h => gives_unique r g h⟩

/-- C43: nothing is converted from an empty variant. -/
theorem C43_empty (E : Env) (v : Vnt) (h : v.held = none) (const : Bool) (t : CType) (b : Bool) :
    to E v const t = .throw .badVariantConvert ∧ canConvert E v const t = .ok false ∧ tryConvert E v t b = .ok (false, none) := by
  simp [to, metafuncTo, canConvert, is, metafuncIs, tryConvert, h, Ret.bind]

/-- C43: `canConvert<T>` always answers; if it answers no, `to<T>` throws `bad_variant_convert`. -/
theorem C43_canConvert_partial {rank : TypeId → Nat} {E : Env} (r : Reachable rank E.w) {v : Vnt} {u : CType} {a₀ : Addr}
    (st : Stands v u a₀) (hn : ¬NullObject E v) (const : Bool) (t : CType) (hu : Shallow u) (ht : Shallow t)
    (hta : ∀ n e, t ≠ .arr n e) (htf : ∀ b q, t = .base b q → b.kind ≠ .func) :
    (∃ b, canConvert E v const t = .ok b ∧ (b = true ↔
      (Fits (v.type (if const then .lrefConst else .lref)) ⟨.none, t⟩ ∧ (SameDecay u t ∨ UpIs E v t)) ∨
      (E.conv u.fullDecay t.fullDecay).isSome = true)) ∧
    (canConvert E v const t = .ok false → to E v const t = .throw .badVariantConvert) := by
  obtain ⟨h, e, rfl⟩ := st.held
  obtain ⟨b, h1, h2⟩ := C42_is_partial r st hn const ⟨.none, t⟩ hu ht
  have hdec : (v.type (if const then .lrefConst else .lref)).t.fullDecay = h.u.fullDecay := by rw [vtype e, type_fullDecay]
  have hcan : canConvert E v const t = .ok (b || (E.conv h.u.fullDecay t.fullDecay).isSome) := by
    unfold canConvert
    rw [h1, hdec]
    cases b <;> simp [Ret.bind, e]
  refine ⟨⟨_, hcan, by rw [Bool.or_eq_true, h2]⟩, fun hf => ?_⟩
  rw [hcan] at hf
  simp only [Ret.ok.injEq, Bool.or_eq_false_iff] at hf
  obtain ⟨rfl, hc⟩ := hf
  rw [C43_to_partial r st hn const t hu ht hta htf]
  refine .none v.access ?_ (place_access e) ?_
  · rintro ⟨f, g⟩
    have sdi : SameDecay (v.type (if const then .lrefConst else .lref)).t t ↔ SameDecay h.u t := by
      rw [← fullDecay_iff, ← fullDecay_iff, hdec]
    have der : ∀ {c : Base} {x : Addr}, Subobject E v c x → Derives E v c := by
      rintro c x ⟨d, e, i, fs, k1, k2, _⟩
      exact ⟨d, e, i, k1, World.LeftPath.reaches (World.Inv.reachable r) k2⟩
    refine absurd (h2.2 ⟨f, ?_⟩) (by simp)
    rcases g with g | ⟨a, ⟨b, c, q, r', x, s, hb, hc, hne, ht', hs, h0⟩ | ⟨b, c, q, q', r1, r2, x, s, hb, hc, hne, ht', hs, h0⟩⟩
    · exact .inl (sdi.1 g)
    · exact .inr ⟨b, c, x, hb, hc, hne, der hs, .inl ⟨q, r', s, ht'⟩⟩
    · exact .inr ⟨b, c, x, hb, hc, hne, der hs, .inr ⟨q, q', r1, r2, s, ht'⟩⟩
  · rw [hdec]
    simpa using hc

/-- C43: `canConvert<T>` may answer yes although `to<T>` throws: the converter declines, or the class cannot be copied. -/
theorem C43_canConvert_promises_nothing :
    (canConvert ExV.env { ExV.vI with self := 4000 } false (ExV.cls ExV.N) = .ok true ∧
      to ExV.env { ExV.vI with self := 4000 } false (ExV.cls ExV.N) = .throw .badVariantConvert) ∧
    (canConvert ExV.env ⟨some ⟨true, ExV.cls ExV.N⟩, 1000, 5000⟩ false (ExV.cls ExV.N) = .ok true ∧
      to ExV.env ⟨some ⟨true, ExV.cls ExV.N⟩, 1000, 5000⟩ false (ExV.cls ExV.N) = .throw .runtimeError) := by decide +kernel

/-- C43: `tryConvert<T>` succeeds exactly when `to<T>` and making the new variant do, and then the variant holds what `to<T>`
    made; when it answers no the variant holds what it held. It never throws; it aborts only when `to<T>` does. -/
theorem C43_tryConvert (E : Env) (v : Vnt) (t : CType) (built : Bool) (m : Option Made) :
    (tryConvert E v t built = .ok (true, m) ↔ built = true ∧ ∃ x, m = some x ∧ to E v false t = .ok x) ∧
    (tryConvert E v t built = .ok (false, m) ↔ m = none ∧
      ((∃ e, to E v false t = .throw e) ∨ (built = false ∧ ∃ x, to E v false t = .ok x))) ∧
    (∀ e, tryConvert E v t built ≠ .throw e) ∧ (tryConvert E v t built = .terminate ↔ to E v false t = .terminate) ∧
    (tryConvert E v t built = .ub ↔ to E v false t = .ub) := by
  unfold tryConvert
  cases to E v false t <;> cases built <;> cases m <;> simp [eq_comm]

open ExV in
example : to env vD false (cls R) = .ok (.copyOf 5008) ∧ to env vPD false (.ptr ⟨false, false⟩ (cls R)) = .ok (.pointer 5008) ∧
    to env vI true (cls N) = .ok (.converted 1 1000) ∧ to env vI true (cls D) = .throw .badVariantConvert ∧
    canConvert env vI true (cls D) = .ok false ∧ to env vCD false (cls D) = .ok (.copyOf 5000) := by decide +kernel

/-! ### C44 -/

/-- C44: what a variant hands out is nowhere less const than what it shows, and it shows a const object when it is const itself
    or holds a reference to const. Missing: arrays of pointers (`C44_false`), 16 pointers and more. -/
theorem C44_keeps_const_partial {rank : TypeId → Nat} {E : Env} (r : Reachable rank E.w) {v : Vnt} (sd : Sound E v)
    {u : CType} {a₀ : Addr} (st : Stands v u a₀) (hn : ¬NullObject E v) (acc : Access) (t : CType) (hu : Shallow u) (ht : Shallow t)
    (nu : NoPtrInArray u) (nt : NoPtrInArray t) (a : Addr) (h : reference E v acc t = .ok a) :
    KeepsConst ⟨.lref, u⟩ (acc.target t) ∧
    (acc = .refConst ∨ acc = .crefConst ∨ IsConst u → acc ≠ .cref → acc ≠ .refMoved → IsConst (acc.target t).t) := by
  have addC : ∀ {t : CType}, NoPtrInArray t → NoPtrInArray (addConst t) := by
    intro t h
    cases h with
    | ptr q h => exact .ptr _ h
    | arrs h =>
      refine .arrs ?_
      induction h with
      | base b q => exact .base _ _
      | arr n _ ih => exact .arr n ih
  have tgt : NoPtrInArray (acc.target t).t := by
    rcases target_t acc t with e | e <;> rw [e]
    · exact nt
    · exact addC nt
  have href : (acc.target t).ref ≠ .none := by cases acc <;> simp [Access.target]
  obtain ⟨hf, _⟩ := ((C42_reference_partial r sd st hn acc t hu ht).1 a).1 h
  obtain ⟨hd, e, rfl⟩ := st.held
  rw [vtype e] at hf
  have src : NoPtrInArray (hd.type acc.attr).t := by
    rcases type_t hd acc.attr with e | e <;> rw [e]
    · exact nu
    · exact addC nu
  have shS : Shallow (hd.type acc.attr).t := by unfold Shallow; rw [type_arity]; exact hu
  have kc := C08_partial _ _ src tgt shS (shallow_target ht) (.inl href) hf
  have hmono : ∀ k s, Reach hd.u k s → ∃ s', Reach (hd.type acc.attr).t k s' ∧ (IsConst s → IsConst s') := by
    intro k s hs
    rcases type_t hd acc.attr with e | e <;> rw [e]
    · exact ⟨s, hs, id⟩
    · have : ∀ {t : CType} {k s}, Reach t k s → ∃ s', Reach (addConst t) k s' ∧ (IsConst s → IsConst s') := by
        intro t k s hs
        induction hs with
        | here t => exact ⟨_, .here _, fun _ => (isConst_iff _).1 (addConst_isConst _)⟩
        | ptr q h _ => exact ⟨_, .ptr _ h, id⟩
        | arr n _ ih =>
          obtain ⟨s', h1, h2⟩ := ih
          exact ⟨s', .arr n h1, h2⟩
      exact this hs
  refine ⟨?_, ?_⟩
  · intro k s t' hs ht' h0 hc
    obtain ⟨s', h1, h2⟩ := hmono k s hs
    exact kc k s' t' h1 ht' h0 (h2 hc)
  · intro hc _ _
    have : IsConst (hd.type acc.attr).t := by
      rcases hc with rfl | rfl | hc
      · exact (isConst_iff _).1 (addConst_isConst _)
      · exact (isConst_iff _).1 (addConst_isConst _)
      · obtain ⟨s', h1, h2⟩ := hmono 0 _ (.here _)
        have : ∀ {t s : CType}, Reach t 0 s → s = t := fun h => by cases h; rfl
        rw [this h1] at h2
        exact h2 hc
    exact kc 0 _ _ (.here _) (.here _) (fun _ => href) this

/-- C44: a const object is never reached through a non-const reference. -/
theorem C44_refused {rank : TypeId → Nat} {E : Env} (r : Reachable rank E.w) {v : Vnt} (sd : Sound E v)
    {b : Base} {vo : Bool} {a₀ : Addr} (st : Stands v (.base b ⟨true, vo⟩) a₀) (hn : ¬NullObject E v) (c : Base) (vo' : Bool) :
    reference E v .ref (.base c ⟨false, vo'⟩) = .throw .badVariantCast ∧
    reference E v .rref (.base c ⟨false, vo'⟩) = .throw .badVariantCast ∧
    data E v false (.base c ⟨false, vo'⟩) = .ok 0 := by
  have sh : ∀ (b : Base) (q : CV), Shallow (.base b q) := fun _ _ => by simp [Shallow, CType.pointerArity]
  obtain ⟨h, e, hu⟩ := st.held
  have h1 : ∀ acc, acc = .ref ∨ acc = .rref → reference E v acc (.base c ⟨false, vo'⟩) = .throw .badVariantCast := by
    intro acc ha
    refine (C42_reference_partial r sd st hn acc _ (sh _ _) (sh _ _)).2.2 ?_
    rintro ⟨hf, _⟩
    rw [C42_fits_without_arrays st acc _ (sh _ _) (sh _ _) (.base _ _) (.base _ _), vtype e] at hf
    rcases ha with rfl | rfl <;> simp only [Access.attr, Held.type, ← hu, Access.target] at hf
    · have := hf.keep 0 _ _ (.here _) (.here _) (by simp) (.base _ _)
      cases this
    · have := hf.keep 0 _ _ (.here _) (.here _) (by simp) (.base _ _)
      cases this
  refine ⟨h1 _ (.inl rfl), h1 _ (.inr rfl), ?_⟩
  exact (C42_data_partial r sd st hn false _ (sh _ _) (sh _ _)).1.2 (h1 _ (.inl rfl))

/-- C44: a variant accessed as const gives out references to const only (there is no other overload). -/
theorem C44_const_variant (acc : Access) (t : CType) (h : acc = .refConst ∨ acc = .crefConst) :
    (acc.target t).ref = .lref ∧ IsConst (acc.target t).t := by
  rcases h with rfl | rfl <;> exact ⟨rfl, (isConst_iff _).1 (addConst_isConst _)⟩

/-- C44: a variant holding a value gives a writable reference to it, also if the value it was made from was const. -/
theorem C44_by_value_writable {E : Env} {v : Vnt} (sd : Sound E v) {t : CType} (h : v.held = some ⟨false, t⟩)
    (ha : ∀ n e, t ≠ .arr n e) :
    ∃ a, Stands v t.removeCv a ∧ reference E v .ref t.removeCv = .ok a ∧ ¬IsConst t.removeCv := by
  obtain ⟨a, st, _, _⟩ := stands_of h
  rw [show (Held.mk false t).u = t.removeCv from kept_of ((not_arr_iff t).1 ha)] at st
  refine ⟨a, st, (C42_own_type sd st ?_).1, ?_⟩
  · intro n e he
    cases t with
    | arr n e => exact ha n e rfl
    | base => cases he
    | ptr => cases he
  · cases t with
    | arr n e => exact absurd rfl (ha n e)
    | base => intro h; cases h
    | ptr => intro h; cases h

/-- C44 is false for arrays of pointers: a `char const *[2]` is handed out as a `char *[2]`. -/
theorem C44_false : ∃ (E : Env) (v : Vnt) (u t : CType) (a : Addr), Sound E v ∧ Stands v u a ∧
    reference E v .ref t = .ok a ∧ ¬KeepsConst ⟨.lref, u⟩ (Access.ref.target t) := by
  have st : Stands ⟨some ⟨true, .arr 2 (.ptr Ex.nn Ex.cint)⟩, 1000, 5000⟩ (.arr 2 (.ptr Ex.nn Ex.cint)) 5000 := .ref _ rfl
  refine ⟨ExV.env, _, .arr 2 (.ptr Ex.nn Ex.cint), .arr 2 (.ptr Ex.nn Ex.int), 5000, ?_, st, by decide +kernel, fun h => ?_⟩
  · refine ⟨by decide, by decide, fun t a h => ?_, fun b q a h => ?_⟩
    · rw [(h.unique st).2]; decide
    · obtain ⟨e, _⟩ := h.unique st; cases e
  · have := h 2 Ex.cint Ex.int (.arr _ (.ptr _ (.here _))) (.arr _ (.ptr _ (.here _))) (by decide) (.base _ _)
    cases this

/-- C44 is false for arrays of pointers put into a variant: the variant forgets that the pointers of a `char const *[2]` are to
    const, and is from then on a variant of `char *[2]`. -/
theorem C44_own_array_false : ∃ (E : Env) (v : Vnt) (t t' : CType) (a : Addr), Sound E v ∧ v.held = some ⟨false, t⟩ ∧
    (∃ k s, Reach t k s ∧ 0 < k ∧ IsConst s) ∧ Stands v t' a ∧ v.type .none = ⟨.none, t'⟩ ∧
    (∀ k s, Reach t' k s → ¬IsConst s) ∧ reference E v .ref t' = .ok a := by
  have st : Stands ⟨some ⟨false, .arr 2 (.ptr Ex.nn Ex.cint)⟩, 1000, 5000⟩ (.arr 2 (.ptr Ex.nn Ex.int)) 5000 :=
    .array 2 (.ptr Ex.nn Ex.cint) rfl
  refine ⟨ExV.env, _, .arr 2 (.ptr Ex.nn Ex.cint), .arr 2 (.ptr Ex.nn Ex.int), 5000, ?_, rfl, ?_, st, rfl, ?_, by decide +kernel⟩
  · refine ⟨by decide, by decide, fun t a h => ?_, fun b q a h => ?_⟩
    · rw [(h.unique st).2]; decide
    · obtain ⟨e, _⟩ := h.unique st; cases e
  · exact ⟨2, Ex.cint, .arr _ (.ptr _ (.here _)), by decide, .base _ _⟩
  · intro k s h c
    cases h with
    | here => cases c with | arr _ c => cases c
    | arr n h =>
      cases h with
      | here => cases c
      | ptr q h => cases h; cases c

/-- An lvalue can be moved from through a variant: `rref<T>() &&` on a variant made with `std::ref(x)` refers to `x` as an
    rvalue. -/
theorem C44_rref_moves_referred : ∃ (E : Env) (v : Vnt) (a : Addr), Sound E v ∧ v.held = some ⟨true, ExV.cls ExV.D⟩ ∧ v.ptr = a ∧
    reference E v .rref (ExV.cls ExV.D) = .ok a := by
  have st : Stands ⟨some ⟨true, ExV.cls ExV.D⟩, 1000, 5000⟩ (ExV.cls ExV.D) 5000 := .ref _ rfl
  refine ⟨ExV.env, ⟨some ⟨true, ExV.cls ExV.D⟩, 1000, 5000⟩, 5000, ⟨by decide, by decide, fun t a h => ?_, fun b q a h => ?_⟩, rfl, rfl, by decide +kernel⟩
  · rw [(h.unique st).2]; decide
  · obtain ⟨e, _⟩ := h.unique st; cases e; decide

open ExV in
example : reference env vD .ref (cls D) = .ok 5000 ∧ reference env vCD .ref (cls D) = .throw .badVariantCast ∧
    reference env vCD .rref (cls D) = .throw .badVariantCast ∧ reference env vCD .cref (cls D) = .ok 5000 := by decide +kernel

end Rtti.Props
