import Verif.Props.Value
import Verif.Props.CompatDeep
import Verif.Lemmas.ValueEdge
/-! C42, C43 without side conditions: every outcome of `ref`, `cref`, `rref`, `is`, `to` and exactly when it is the outcome.
The bound on pointer levels is that of the 16-bit field; the code does not compile from 31 levels on. -/
set_option autoImplicit false
namespace Rtti.Props
open Rtti Spec Val

/-- The class of an object that is not there is needed: a null pointer to a class with `classInfo()` is asked for as a pointer to
    another class, and pointer depth and const allow it. -/
def AsksNull (E : Env) (v : Vnt) (u : CType) (S T : RType) : Prop :=
  NullObject E v ∧ Fits S T ∧ ¬SameDecay u T.t ∧ ∃ q c r, T.t = .ptr q (.base c r) ∧ c.kind = .cls

private theorem blind_iff {E : Env} {v : Vnt} {h : Held} (at' : Attr) (T : RType) :
    Blind E v (h.type at') T ↔ AsksNull E v h.u (h.type at') T := by
  have : SameDecay (h.type at').t T.t ↔ SameDecay h.u T.t := by rw [← fullDecay_iff, ← fullDecay_iff, type_fullDecay]
  unfold Blind AsksNull ToClassPtr
  rw [this]

/-- C42: all outcomes of `ref<T>`, `cref<T>`, `rref<T>` in each of their overloads. The process is terminated exactly when
    comparing the types does it (`C10_terminates_iff`). -/
theorem C42_reference_exact {rank : TypeId → Nat} {E : Env} (r : Reachable rank E.w) {v : Vnt} (sd : Sound E v)
    {u : CType} {a₀ : Addr} (st : Stands v u a₀) (acc : Access) (t : CType) (hu : u.pointerArity < 65536) (ht : t.pointerArity < 65536) :
    (∀ a, reference E v acc t = .ok a ↔
      ¬AsksNull E v u (v.type acc.attr) (acc.target t) ∧ Fits (v.type acc.attr) (acc.target t) ∧ Refers E v t a) ∧
    (reference E v acc t = .throw .badVariantCast ↔
      ¬AsksNull E v u (v.type acc.attr) (acc.target t) ∧ compatible (describe (v.type acc.attr)) (describe (acc.target t)) ≠ none ∧
      ¬(Fits (v.type acc.attr) (acc.target t) ∧ ∃ a, Refers E v t a)) ∧
    (reference E v acc t = .ub ↔ AsksNull E v u (v.type acc.attr) (acc.target t)) ∧
    (reference E v acc t = .terminate ↔ compatible (describe (v.type acc.attr)) (describe (acc.target t)) = none) ∧
    ((∃ a, reference E v acc t = .ok a) ∨ reference E v acc t = .throw .badVariantCast ∨ reference E v acc t = .ub ∨
      reference E v acc t = .terminate) := by
  obtain ⟨h, e, rfl⟩ := st.held
  unfold reference
  rw [vtype e]
  obtain ⟨h1, h2, _⟩ := metafuncCast_edge r sd e acc.attr (acc.target t)
  rw [blind_iff] at h1
  have harity : (acc.target t).t.pointerArity < 65536 := by cases acc <;> simpa [Access.target, addConst_arity] using ht
  by_cases hco : compatible (describe (h.type acc.attr)) (describe (acc.target t)) = none
  · have hx := h2.2 hco
    have hf : ¬Fits (h.type acc.attr) (acc.target t) := by unfold Fits; rw [hco]; nofun
    rw [hx] at h1 ⊢
    exact ⟨fun a => ⟨nofun, fun x => absurd x.2.1 hf⟩, ⟨nofun, fun x => absurd hco x.2.1⟩, h1, ⟨fun _ => hco, fun _ => rfl⟩, .inr (.inr (.inr rfl))⟩
  · have key := metafuncCast_gen r sd e acc.attr (acc.target t) (by rwa [← u_arity]) harity hco
    simp only [refers_target] at key
    rcases key with ⟨hx, g2, g3⟩ | ⟨a, hx, g2, g3, g4⟩ | ⟨hx, g2⟩ <;> rw [hx] at h1 h2 ⊢
    · have := h1.1 rfl
      exact ⟨fun a => ⟨nofun, fun x => absurd this x.1⟩, ⟨nofun, fun x => absurd this x.1⟩, h1, h2, .inr (.inr (.inl rfl))⟩
    · have hb : ¬AsksNull E v h.u (h.type acc.attr) (acc.target t) := fun x => nomatch h1.2 x
      refine ⟨fun a' => ⟨fun h => by (cases h; exact ⟨hb, g2, g3⟩), fun h => by rw [g3.unique r sd h.2.2]⟩,
        ⟨nofun, fun x => absurd ⟨g2, a, g3⟩ x.2.2⟩, h1, h2, .inl ⟨a, rfl⟩⟩
    · have hb : ¬AsksNull E v h.u (h.type acc.attr) (acc.target t) := fun x => nomatch h1.2 x
      have hno : ¬(Fits (h.type acc.attr) (acc.target t) ∧ ∃ a, Refers E v t a) := by
        rintro ⟨k1, a, k2⟩
        rcases g2 with g | g
        · exact g k1
        · exact g a k2
      exact ⟨fun a => ⟨nofun, fun x => absurd ⟨x.2.1, a, x.2.2⟩ hno⟩, ⟨fun _ => ⟨hb, hco, hno⟩, fun _ => rfl⟩, h1, h2, .inr (.inl rfl)⟩

/-- C42: all outcomes of `is<T>`. -/
theorem C42_is_exact {rank : TypeId → Nat} {E : Env} (r : Reachable rank E.w) {v : Vnt} (sd : Sound E v)
    {u : CType} {a₀ : Addr} (st : Stands v u a₀) (const : Bool) (T : RType) (hu : u.pointerArity < 65536) (ht : T.t.pointerArity < 65536) :
    let S := v.type (if const then .lrefConst else .lref)
    (is E v const T = .ok true ↔ ¬AsksNull E v u S T ∧ Fits S T ∧ (SameDecay u T.t ∨ UpIs E v T.t)) ∧
    (is E v const T = .ok false ↔ ¬AsksNull E v u S T ∧ compatible (describe S) (describe T) ≠ none ∧
      ¬(Fits S T ∧ (SameDecay u T.t ∨ UpIs E v T.t))) ∧
    (is E v const T = .ub ↔ AsksNull E v u S T) ∧
    (is E v const T = .terminate ↔ compatible (describe S) (describe T) = none) ∧
    ((∃ b, is E v const T = .ok b) ∨ is E v const T = .ub ∨ is E v const T = .terminate) := by
  obtain ⟨h, e, rfl⟩ := st.held
  unfold is
  rw [vtype e]
  dsimp only
  generalize (if const then Attr.lrefConst else Attr.lref) = at'
  obtain ⟨h1, h2, _⟩ := metafuncIs_edge r sd e at' T
  rw [blind_iff] at h1
  by_cases hco : compatible (describe (h.type at')) (describe T) = none
  · have hx := h2.2 hco
    have hf : ¬Fits (h.type at') T := by unfold Fits; rw [hco]; nofun
    rw [hx] at h1 ⊢
    exact ⟨⟨nofun, fun x => absurd x.2.1 hf⟩, ⟨nofun, fun x => absurd hco x.2.1⟩, h1, ⟨fun _ => hco, fun _ => rfl⟩, .inr (.inr rfl)⟩
  · rcases metafuncIs_gen r e at' T (by rwa [← u_arity]) ht hco with ⟨hx, g2⟩ | ⟨b, hx, g2⟩ <;> rw [hx] at h1 h2 ⊢
    · have := h1.1 rfl
      exact ⟨⟨nofun, fun x => absurd this x.1⟩, ⟨nofun, fun x => absurd this x.1⟩, h1, h2, .inr (.inl rfl)⟩
    · have hb : ¬AsksNull E v h.u (h.type at') T := fun x => nomatch h1.2 x
      cases b with
      | true => exact ⟨⟨fun _ => ⟨hb, g2.1 rfl⟩, fun _ => rfl⟩, ⟨nofun, fun x => absurd (g2.1 rfl) x.2.2⟩, h1, h2, .inl ⟨_, rfl⟩⟩
      | false =>
        have hno : ¬(Fits (h.type at') T ∧ (SameDecay h.u T.t ∨ UpIs E v T.t)) := fun x => nomatch g2.2 x
        exact ⟨⟨nofun, fun x => absurd x.2 hno⟩, ⟨fun _ => ⟨hb, hco, hno⟩, fun _ => rfl⟩, h1, h2, .inl ⟨_, rfl⟩⟩

/-- C43: all outcomes of `to<T>`. -/
theorem C43_to_exact {rank : TypeId → Nat} {E : Env} (r : Reachable rank E.w) {v : Vnt} (sd : Sound E v) {u : CType} {a₀ : Addr}
    (st : Stands v u a₀) (const : Bool) (t : CType) (hta : ∀ n e, t ≠ .arr n e) (htf : ∀ b q, t = .base b q → b.kind ≠ .func) (R : Ret Made) :
    let S := v.type (if const then .lrefConst else .lref)
    to E v const t = R ↔
      (R = .ub ∧ AsksNull E v u S ⟨.none, t⟩) ∨
      (R = .terminate ∧ compatible (describe S) (describe ⟨.none, t⟩) = none) ∨
      (¬AsksNull E v u S ⟨.none, t⟩ ∧ compatible (describe S) (describe ⟨.none, t⟩) ≠ none ∧ Gives E v S t R) := by
  obtain ⟨h, e, rfl⟩ := st.held
  unfold to
  rw [vtype e]
  dsimp only
  generalize (if const then Attr.lrefConst else Attr.lref) = at'
  obtain ⟨h1, h2, _⟩ := metafuncTo_edge r sd e at' t
  rw [blind_iff] at h1
  by_cases hco : compatible (describe (h.type at')) (describe ⟨.none, t⟩) = none
  · rw [h2.2 hco] at h1 ⊢
    refine ⟨fun h => .inr (.inl ⟨h.symm, hco⟩), ?_⟩
    rintro (⟨_, b⟩ | ⟨k, _⟩ | ⟨_, k, _⟩)
    · exact nomatch h1.2 b
    · exact k.symm
    · exact absurd hco k
  · by_cases hb : AsksNull E v h.u (h.type at') ⟨.none, t⟩
    · rw [h1.2 hb]
      refine ⟨fun h => .inl ⟨h.symm, hb⟩, ?_⟩
      rintro (⟨k, _⟩ | ⟨_, k⟩ | ⟨k, _⟩)
      · exact k.symm
      · exact absurd k hco
      · exact absurd hb k
    · rcases metafuncTo_gen r e at' t hco ((not_arr_iff _).1 hta) htf with ⟨hx, _⟩ | g
      · exact absurd (h1.1 hx) hb
      · refine ⟨fun h => .inr (.inr ⟨hb, hco, h ▸ g⟩), ?_⟩
        rintro (⟨_, k⟩ | ⟨_, k⟩ | ⟨_, _, k⟩)
        · exact absurd k hb
        · exact absurd k hco
        · exact gives_unique r g k

/-- C43: all outcomes of `canConvert<T>`: it is undefined or terminates as `is<T>` does, and otherwise says whether the type fits
    or there is a converter. -/
theorem C43_canConvert_exact {rank : TypeId → Nat} {E : Env} (r : Reachable rank E.w) {v : Vnt} (sd : Sound E v) {u : CType} {a₀ : Addr}
    (st : Stands v u a₀) (const : Bool) (t : CType) (hu : u.pointerArity < 65536) (ht : t.pointerArity < 65536) :
    let S := v.type (if const then .lrefConst else .lref)
    (canConvert E v const t = .ub ↔ AsksNull E v u S ⟨.none, t⟩) ∧
    (canConvert E v const t = .terminate ↔ compatible (describe S) (describe ⟨.none, t⟩) = none) ∧
    (∀ b, canConvert E v const t = .ok b ↔ ¬AsksNull E v u S ⟨.none, t⟩ ∧ compatible (describe S) (describe ⟨.none, t⟩) ≠ none ∧
      (b = true ↔ (Fits S ⟨.none, t⟩ ∧ (SameDecay u t ∨ UpIs E v t)) ∨ (E.conv u.fullDecay t.fullDecay).isSome = true)) := by
  obtain ⟨h1, h2, h3, h4, h5⟩ := C42_is_exact r sd st const ⟨.none, t⟩ hu ht
  obtain ⟨h, e, rfl⟩ := st.held
  have hdec : (v.type (if const then .lrefConst else .lref)).t.fullDecay = h.u.fullDecay := by rw [vtype e, type_fullDecay]
  dsimp only at h1 h2 h3 h4 h5 ⊢
  unfold canConvert
  rw [hdec]
  generalize v.type (if const then .lrefConst else .lref) = S at *
  rcases h5 with ⟨b, hx⟩ | hx | hx <;> rw [hx] at h1 h2 h3 h4 ⊢
  · have hb : ¬AsksNull E v h.u S ⟨.none, t⟩ := fun x => nomatch h3.2 x
    have hco : compatible (describe S) (describe ⟨.none, t⟩) ≠ none := fun x => nomatch h4.2 x
    have hbt : b = true ↔ Fits S ⟨.none, t⟩ ∧ (SameDecay h.u t ∨ UpIs E v t) := by
      rw [Ret.ok.injEq] at h1
      exact ⟨fun k => (h1.1 k).2, fun k => h1.2 ⟨hb, k⟩⟩
    have hval : (Ret.ok b).bind (fun b => if b = true then Ret.ok true else if v.held = none then .ok false
        else .ok (E.conv h.u.fullDecay t.fullDecay).isSome) = .ok (b || (E.conv h.u.fullDecay t.fullDecay).isSome) := by
      cases b <;> simp [Ret.bind, e]
    rw [hval]
    refine ⟨⟨nofun, fun k => absurd k hb⟩, ⟨nofun, fun k => absurd k hco⟩, fun b' => ?_⟩
    rw [Ret.ok.injEq, ← hbt]
    refine ⟨fun k => ⟨hb, hco, by rw [← k, Bool.or_eq_true]⟩, fun k => ?_⟩
    have := k.2.2
    rw [← Bool.or_eq_true] at this
    exact (Bool.eq_iff_iff.2 this).symm
  · have hb := h3.1 rfl
    exact ⟨⟨fun _ => hb, fun _ => rfl⟩, ⟨nofun, fun k => nomatch h4.2 k⟩, fun b => ⟨nofun, fun k => absurd hb k.1⟩⟩
  · have hco := h4.1 rfl
    exact ⟨⟨nofun, fun k => nomatch h3.2 k⟩, ⟨fun _ => hco, fun _ => rfl⟩, fun b => ⟨nofun, fun k => absurd hco k.2.1⟩⟩

-- a null `D *`, `D` with `classInfo()`, asked for a `B *`; and a 16-fold pointer
open ExV in
example : AsksNull { env with info := fun _ => true } vNull (.ptr ⟨false, false⟩ (cls D)) ⟨.lref, .ptr ⟨false, false⟩ (cls D)⟩
    ⟨.lref, .ptr ⟨false, false⟩ (cls B)⟩ := by
  refine ⟨⟨D, ?_, rfl⟩, by (unfold Fits; decide +kernel), ?_, ⟨false, false⟩, B, ⟨false, false⟩, rfl, rfl⟩
  · have st : Stands vNull (.ptr ⟨false, false⟩ (cls D)) 3000 := .inPlace (.ptr ⟨false, false⟩ (cls D)) rfl (by simp) (by decide)
    exact Designates.pointer (E := { env with info := fun _ => true }) D ⟨false, false⟩ ⟨false, false⟩ 3000 rfl st
  · rw [← fullDecay_iff]; decide
example : reference ExV.env ⟨some ⟨false, ptrs Ex.nn 16 Ex.int⟩, 1000, 5000⟩ .refConst (ptrs Ex.kk 16 Ex.cint) = .terminate := by decide +kernel
example : to ExV.env ExV.vPD false (.ptr ⟨false, false⟩ (ExV.cls ExV.R)) = .ok (.pointer 5008) := by decide +kernel

end Rtti.Props
