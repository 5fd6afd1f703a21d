import Verif.Props.Invoke
import Verif.Props.ValueEdge
/-! C45, C46 without side conditions: when looking a member up or binding a parameter is undefined behaviour or terminates the process,
and that it is as `C45_*_partial` and `C46_*_partial` say otherwise. -/
set_option autoImplicit false
namespace Rtti.Props
open Rtti Spec Val

/-! ### C45 -/

/-- C45: all outcomes of looking the class up. It is undefined behaviour exactly for a null pointer to a class with `classInfo()`. -/
theorem C45_class_exact {rank : TypeId → Nat} {E : Env} (r : Reachable rank E.w) (v : Vnt) :
    (memberClass E v = .ub ↔ NullObject E v) ∧
    (∀ d, memberClass E v = .ok d ↔ ¬NullObject E v ∧ ClassOf E v d) ∧
    (memberClass E v = .throw .runtimeError ↔ ¬NullObject E v ∧ ∀ d, ¬ClassOf E v d) := by
  by_cases hn : NullObject E v
  · have hm : memberClass E v = .ub := by
      obtain ⟨b, hd, hi⟩ := hn
      rcases classInfo_cases E v with ⟨b', x', hd', e⟩ | ⟨hd', _⟩
      · obtain ⟨rfl, rfl⟩ := hd.unique hd'
        have ei : classInfo E v = .ub := by rw [e]; simp [objectInfo, hi]
        unfold memberClass metaClass
        rw [ei]
        generalize (0 : Addr) = z at hd
        cases hd with
        | object q _ hb st =>
          rw [if_neg (held_of st), isClass_of st, isClassPtr_of st]
          simp [CType.baseType, CType.isPointer, hb, Ret.bind]
        | pointer q q' a hb st =>
          rw [if_neg (held_of st), isClass_of st, isClassPtr_of st]
          simp [CType.baseType, CType.isPointer, hb, CType.pointerArity, Ret.bind]
      · exact absurd hd (hd' _ _)
    simp [hm, hn]
  · obtain ⟨h1, h2⟩ := C45_class_partial r hn
    refine ⟨⟨fun h => ?_, fun h => absurd h hn⟩, fun d => by simp [h1 d, hn], ?_⟩
    · by_cases hc : ∃ d, ClassOf E v d
      · obtain ⟨d, hd⟩ := hc
        rw [(h1 d).2 hd] at h; cases h
      · rw [h2 fun d hd => hc ⟨d, hd⟩] at h; cases h
    · refine ⟨fun h => ⟨hn, fun d hd => ?_⟩, fun h => h2 h.2⟩
      rw [(h1 d).2 hd] at h; cases h

/-- C45: with such a pointer `invoke`, `get_property` and `set_property` are undefined, whatever the name. -/
theorem C45_null {rank : TypeId → Nat} {E : Env} (r : Reachable rank E.w) (N : Nest) (fn : Ptr → Fn) (pr : Ptr → Property) (i : Inst)
    (name : Str) (args : List Arg) (a : Arg) (h : NullObject E i.v) :
    invokeNamed E N fn i name args = .ub ∧ getNamed E N pr i.v name = .ub ∧ setNamed E N pr i.v name a = .ub := by
  have := (C45_class_exact r i.v).1.2 h
  simp [invokeNamed, getNamed, setNamed, this, Ret.bind]

/-! ### C46 -/

/-- comparing `S` to `T` and following the pointer does not come off -/
def LooksBad (E : Env) (v : Vnt) (u : CType) (S T : RType) {A : Type} (R : Ret A) : Prop :=
  (R = .ub ∧ AsksNull E v u S T) ∨ (R = .terminate ∧ compatible (describe S) (describe T) = none)

/-- binding compares the type shown by the variant to these: the object itself is tried first, then a copy or a conversion -/
inductive Compares (E : Env) (v : Vnt) (u : CType) (rvalue : Bool) (p : RType) : RType → RType → Prop
  | rref : p.ref = .rref → rvalue = true → Compares E v u rvalue p (v.type .lref) ⟨.lref, p.t.removeCv⟩
  | rrefTo : p.ref = .rref → rvalue = true → (∀ R : Ret Bound, ¬LooksBad E v u (v.type .lref) ⟨.lref, p.t.removeCv⟩ R) →
      (∀ a, ¬RefersTo E v .lref ⟨.lref, p.t.removeCv⟩ a) → Compares E v u rvalue p (v.type .lref) ⟨.none, p.t.removeCv⟩
  | cref : p.ref = .lref → IsConst p.t → Compares E v u rvalue p (v.type .lrefConst) ⟨.lref, addConst p.t.removeCv⟩
  | crefTo : p.ref = .lref → IsConst p.t → (∀ R : Ret Bound, ¬LooksBad E v u (v.type .lrefConst) ⟨.lref, addConst p.t.removeCv⟩ R) →
      (∀ a, ¬RefersTo E v .lrefConst ⟨.lref, addConst p.t.removeCv⟩ a) →
      Compares E v u rvalue p (v.type .lrefConst) ⟨.none, p.t.removeCv⟩
  | lref : p.ref = .lref → ¬IsConst p.t → rvalue = false → Compares E v u rvalue p (v.type .lref) ⟨.lref, p.t.removeCv⟩
  | value : p.ref = .none → Compares E v u rvalue p (v.type .lrefConst) ⟨.none, p.t.removeCv⟩

/-- every outcome of binding a parameter -/
inductive Binding (E : Env) (v : Vnt) (u : CType) (rvalue : Bool) (p : RType) (R : Ret Bound) : Prop
  | fails (S T : RType) : Compares E v u rvalue p S T → LooksBad E v u S T R → Binding E v u rvalue p R
  | takes : (∀ S T, Compares E v u rvalue p S T → ∀ R' : Ret Bound, ¬LooksBad E v u S T R') → Takes E v rvalue p R → Binding E v u rvalue p R

theorem LooksBad.unique {E : Env} {v : Vnt} {u : CType} {S T : RType} {A : Type} {R R' : Ret A} (h : LooksBad E v u S T R)
    (h' : LooksBad E v u S T R') : R = R' := by
  have x : AsksNull E v u S T → compatible (describe S) (describe T) = none → False := fun a b => by
    have := a.2.1
    rw [Fits, b] at this; cases this
  rcases h with ⟨rfl, h⟩ | ⟨rfl, h⟩ <;> rcases h' with ⟨rfl, h'⟩ | ⟨rfl, h'⟩
  · rfl
  · exact absurd h' (x h)
  · exact absurd h (x h')
  · rfl

private theorem Compares.unique {E : Env} {v : Vnt} {u : CType} {rv : Bool} {p : RType} {S T S' T' : RType} {R R' : Ret Bound}
    (h : Compares E v u rv p S T) (h' : Compares E v u rv p S' T') (f : LooksBad E v u S T R) (f' : LooksBad E v u S' T' R') :
    S = S' ∧ T = T' := by
  cases h <;> cases h' <;> first
    | exact ⟨rfl, rfl⟩
    | (rename_i g _ _ _ ; exact absurd f (g _))
    | (rename_i g _; exact absurd f (g _))
    | (rename_i g _; exact absurd f' (g _))
    | (simp_all; done)

theorem Binding.unique {rank : TypeId → Nat} {E : Env} (r : Reachable rank E.w) {v : Vnt} (sd : Sound E v) {u : CType} {rv : Bool}
    {p : RType} {R R' : Ret Bound} (h : Binding E v u rv p R) (h' : Binding E v u rv p R') : R = R' := by
  cases h with
  | fails S T c f =>
    cases h' with
    | fails S' T' c' f' => obtain ⟨rfl, rfl⟩ := c.unique c' f f'; exact f.unique f'
    | takes n _ => exact absurd f (n _ _ c _)
  | takes n t =>
    cases h' with
    | fails S' T' c' f' => exact absurd f' (n _ _ c' _)
    | takes _ t' => exact t.unique r sd t'

private theorem cast_ne {E : Env} {v : Vnt} {S T : RType} (hT : T.t.isArray = false) {a : Addr} (h : metafuncCast E v S T = .ok a) : a ≠ 0 := by
  unfold metafuncCast at h
  split at h
  · cases h
  · cases hc : compat S T <;> rw [hc] at h <;> simp only [Ret.bind] at h <;> try cases h
    rename_i b
    generalize hx : (if (!b) = true then Ret.ok 0 else if S.t.fullDecay = T.t.fullDecay then Ret.ok v.access else castTo E v S T) = x at h
    cases x <;> simp only at h <;> try cases h
    split at h
    · cases h
    · rw [hT] at h; simp at h; subst h; assumption

/-- `reference`, in the words of `LooksBad` -/
theorem reference_steps {rank : TypeId → Nat} {E : Env} (r : Reachable rank E.w) {v : Vnt} (sd : Sound E v) {u : CType} {a₀ : Addr}
    (st : Stands v u a₀) (acc : Access) (t : CType) (hta : ∀ n e, t ≠ .arr n e) (hu : u.pointerArity < 65536) (ht : t.pointerArity < 65536) :
    (LooksBad E v u (v.type acc.attr) (acc.target t) (reference E v acc t) ∧ (reference E v acc t = .ub ∨ reference E v acc t = .terminate)) ∨
    ((∀ R : Ret Bound, ¬LooksBad E v u (v.type acc.attr) (acc.target t) R) ∧
      ((∃ a, reference E v acc t = .ok a ∧ RefersTo E v acc.attr (acc.target t) a ∧ a ≠ 0) ∨
      (reference E v acc t = .throw .badVariantCast ∧ ∀ a, ¬RefersTo E v acc.attr (acc.target t) a))) := by
  obtain ⟨h1, h2, h3, h4, h5⟩ := C42_reference_exact r sd st acc t hu ht
  have ne : ∀ a, reference E v acc t = .ok a → a ≠ 0 := fun a h => by
    unfold reference at h
    refine cast_ne ?_ h
    have : t.isArray = false := by cases t <;> simp_all [CType.isArray]
    cases acc <;> cases t <;> simp_all [Access.target, addConst, CType.isArray]
  have tr : ∀ a, RefersTo E v acc.attr (acc.target t) a ↔ Fits (v.type acc.attr) (acc.target t) ∧ Refers E v t a := fun a => by
    unfold RefersTo; rw [refers_target]
  have no : reference E v acc t ≠ .ub → reference E v acc t ≠ .terminate → ∀ R : Ret Bound, ¬LooksBad E v u (v.type acc.attr) (acc.target t) R := by
    rintro n1 n2 R (⟨_, h⟩ | ⟨_, h⟩)
    · exact n1 (h3.2 h)
    · exact n2 (h4.2 h)
  rcases h5 with ⟨a, e⟩ | e | e | e
  · exact .inr ⟨no (by rw [e]; nofun) (by rw [e]; nofun), .inl ⟨a, e, (tr a).2 ((h1 a).1 e).2, ne a e⟩⟩
  · exact .inr ⟨no (by rw [e]; nofun) (by rw [e]; nofun), .inr ⟨e, fun a h => (h2.1 e).2.2 ⟨((tr a).1 h).1, a, ((tr a).1 h).2⟩⟩⟩
  · exact .inl ⟨.inl ⟨e, h3.1 e⟩, .inl e⟩
  · exact .inl ⟨.inr ⟨e, h4.1 e⟩, .inr e⟩

theorem to_steps {rank : TypeId → Nat} {E : Env} (r : Reachable rank E.w) {v : Vnt} (sd : Sound E v) {u : CType} {a₀ : Addr}
    (st : Stands v u a₀) (const : Bool) (t : CType) (hta : ∀ n e, t ≠ .arr n e) (htf : ∀ b q, t = .base b q → b.kind ≠ .func) :
    (LooksBad E v u (v.type (if const then .lrefConst else .lref)) ⟨.none, t⟩ (to E v const t) ∧ (to E v const t = .ub ∨ to E v const t = .terminate)) ∨
    ((∀ R : Ret Bound, ¬LooksBad E v u (v.type (if const then .lrefConst else .lref)) ⟨.none, t⟩ R) ∧
      Gives E v (v.type (if const then .lrefConst else .lref)) t (to E v const t)) := by
  rcases (C43_to_exact r sd st const t hta htf (to E v const t)).1 rfl with ⟨h, h'⟩ | ⟨h, h'⟩ | ⟨h1, h2, h3⟩
  · exact .inl ⟨.inl ⟨h, h'⟩, .inl h⟩
  · exact .inl ⟨.inr ⟨h, h'⟩, .inr h⟩
  · refine .inr ⟨?_, h3⟩
    rintro R (⟨_, h⟩ | ⟨_, h⟩)
    · exact h1 h
    · exact h2 h

private theorem LooksBad.cast {E : Env} {v : Vnt} {u : CType} {S T : RType} {A B : Type} {R : Ret A} (h : LooksBad E v u S T R) (f : A → Ret B) :
    LooksBad E v u S T (R.bind f) := by
  rcases h with ⟨rfl, h⟩ | ⟨rfl, h⟩
  · exact .inl ⟨rfl, h⟩
  · exact .inr ⟨rfl, h⟩

private theorem takeFrom_binding {rank : TypeId → Nat} {E : Env} (r : Reachable rank E.w) {v : Vnt} (sd : Sound E v) {u : CType} {a₀ : Addr}
    (st : Stands v u a₀) (rv : Bool) (p : RType) (hp : ParamOk p) (hu : u.pointerArity < 65536) (ht : p.t.pointerArity < 65536) :
    Binding E v u rv p (takeFrom E v rv p) := by
  obtain ⟨ha, hf⟩ := removeCv_param hp
  have ht' : p.t.removeCv.pointerArity < 65536 := by rwa [removeCv_arity]
  have noc : ∀ {R : Ret Bound}, (∀ S T, ¬Compares E v u rv p S T) → Takes E v rv p R → Binding E v u rv p R :=
    fun h t => .takes (fun S T c => absurd c (h S T)) t
  -- the object itself, else a temporary
  have two : ∀ (const : Bool),
      Compares E v u rv p (v.type (if const then .lrefConst else .lref)) ⟨.lref, if const then addConst p.t.removeCv else p.t.removeCv⟩ →
      ((∀ R : Ret Bound, ¬LooksBad E v u (v.type (if const then .lrefConst else .lref)) ⟨.lref, if const then addConst p.t.removeCv else p.t.removeCv⟩ R) →
        (∀ a, ¬RefersTo E v (if const then .lrefConst else .lref) ⟨.lref, if const then addConst p.t.removeCv else p.t.removeCv⟩ a) →
        Compares E v u rv p (v.type (if const then .lrefConst else .lref)) ⟨.none, p.t.removeCv⟩) →
      (∀ S T, Compares E v u rv p S T → (S = v.type (if const then .lrefConst else .lref) ∧
          T = ⟨.lref, if const then addConst p.t.removeCv else p.t.removeCv⟩) ∨
        (S = v.type (if const then .lrefConst else .lref) ∧ T = ⟨.none, p.t.removeCv⟩ ∧
          ∀ a, ¬RefersTo E v (if const then .lrefConst else .lref) ⟨.lref, if const then addConst p.t.removeCv else p.t.removeCv⟩ a)) →
      (∀ a, RefersTo E v (if const then .lrefConst else .lref) ⟨.lref, if const then addConst p.t.removeCv else p.t.removeCv⟩ a →
        Takes E v rv p (.ok (.object a))) →
      (∀ R, (∀ a, ¬RefersTo E v (if const then .lrefConst else .lref) ⟨.lref, if const then addConst p.t.removeCv else p.t.removeCv⟩ a) →
        Gives E v (v.type (if const then .lrefConst else .lref)) p.t.removeCv R → Takes E v rv p (R.bind fun m => .ok (.dummy m))) →
      Binding E v u rv p ((data E v const p.t.removeCv).bind fun x =>
        if x ≠ 0 then .ok (.object x) else (to E v const p.t.removeCv).bind fun m => .ok (.dummy m)) := by
    intro const c1 c2 c3 t1 t2
    unfold data
    have hA : (Access.attr (if const then .refConst else .ref)) = (if const then .lrefConst else .lref) := by cases const <;> rfl
    have hT : (Access.target (if const then .refConst else .ref) p.t.removeCv) = ⟨.lref, if const then addConst p.t.removeCv else p.t.removeCv⟩ := by
      cases const <;> rfl
    have hs := reference_steps r sd st (if const then .refConst else .ref) p.t.removeCv ha hu ht'
    rw [hA, hT] at hs
    rcases hs with ⟨hf1, e | e⟩ | ⟨hf1, ⟨a, e, hr, h0⟩ | ⟨e, hr⟩⟩
    · rw [e] at hf1 ⊢
      exact .fails _ _ c1 (hf1.cast _)
    · rw [e] at hf1 ⊢
      exact .fails _ _ c1 (hf1.cast _)
    · rw [e]
      simp only [Ret.bind, ne_eq, h0, not_false_eq_true, if_true]
      refine .takes (fun S T c => ?_) (t1 a hr)
      rcases c3 S T c with ⟨rfl, rfl⟩ | ⟨_, _, n⟩
      · exact hf1
      · exact absurd hr (n a)
    · rw [e]
      simp only [Ret.bind, ne_eq, not_true_eq_false, if_false]
      rcases to_steps r sd st const p.t.removeCv ha hf with ⟨hf2, _⟩ | ⟨hf2, g⟩
      · exact .fails _ _ (c2 hf1 hr) (hf2.cast _)
      · refine .takes (fun S T c => ?_) (t2 _ hr g)
        rcases c3 S T c with ⟨rfl, rfl⟩ | ⟨rfl, rfl, _⟩
        · exact hf1
        · exact hf2
  unfold takeFrom
  cases hr : p.ref with
  | rref =>
    cases rv with
    | false =>
      refine noc (fun S T c => ?_) (.rrefLvalue hr rfl)
      cases c <;> simp_all
    | true =>
      simp only [Bool.not_true, Bool.false_eq_true, if_false]
      refine two false (.rref hr rfl) (.rrefTo hr rfl) (fun S T c => ?_) (fun a => .rref a hr rfl) (fun R => .rrefTo R hr rfl)
      cases c with
      | rref => exact .inl ⟨rfl, rfl⟩
      | rrefTo _ _ _ h => exact .inr ⟨rfl, rfl, h⟩
      | _ => simp_all
  | lref =>
    by_cases hc : p.t.isConst = true
    · simp only [hc, if_true]
      have hc' := (isConst_iff _).1 hc
      refine two true (.cref hr hc') (.crefTo hr hc') (fun S T c => ?_) (fun a => .cref a hr hc') (fun R => .crefTo R hr hc')
      cases c with
      | cref => exact .inl ⟨rfl, rfl⟩
      | crefTo _ _ _ h => exact .inr ⟨rfl, rfl, h⟩
      | _ => simp_all
    · simp only [hc, Bool.false_eq_true, if_false]
      have hc' : ¬IsConst p.t := fun h => hc ((isConst_iff _).2 h)
      cases rv with
      | true =>
        refine noc (fun S T c => ?_) (.lrefRvalue hr hc' rfl)
        cases c <;> simp_all
      | false =>
        simp only [Bool.false_eq_true, if_false]
        have only : ∀ S T, Compares E v u false p S T → S = v.type .lref ∧ T = ⟨.lref, p.t.removeCv⟩ := by
          intro S T c
          cases c with
          | lref => exact ⟨rfl, rfl⟩
          | _ => simp_all
        rcases reference_steps r sd st .ref p.t.removeCv ha hu ht' with ⟨hf1, _⟩ | ⟨hf1, ⟨a, e, hr', _⟩ | ⟨e, hr'⟩⟩
        · exact .fails _ _ (.lref hr hc' rfl) (hf1.cast _)
        · rw [e]
          refine .takes (fun S T c => ?_) (.lref a hr hc' rfl hr')
          obtain ⟨rfl, rfl⟩ := only S T c
          exact hf1
        · rw [e]
          refine .takes (fun S T c => ?_) (.lrefNot hr hc' rfl hr')
          obtain ⟨rfl, rfl⟩ := only S T c
          exact hf1
  | none =>
    simp only
    have only : ∀ S T, Compares E v u rv p S T → S = v.type .lrefConst ∧ T = ⟨.none, p.t.removeCv⟩ := by
      intro S T c
      cases c with
      | value => exact ⟨rfl, rfl⟩
      | _ => simp_all
    rcases to_steps r sd st true p.t.removeCv ha hf with ⟨hf1, _⟩ | ⟨hf1, g⟩
    · exact .fails _ _ (.value hr) (hf1.cast _)
    · refine .takes (fun S T c => ?_) (.value _ hr g)
      obtain ⟨rfl, rfl⟩ := only S T c
      exact hf1

/-- C46, every outcome, for an argument that is no variant. -/
theorem C46_outcome_exact {rank : TypeId → Nat} {E : Env} (r : Reachable rank E.w) (N : Nest) (a : Arg) (hv : a.isVariant N = false)
    (sd : Sound E a.value) {u : CType} {x : Addr} (st : Stands a.value u x) (p : RType) (hp : ParamOk p)
    (hu : u.pointerArity < 65536) (ht : p.t.pointerArity < 65536) (R : Ret Bound) :
    a.get E N p = R ↔ Binding E a.value u a.rvalue p R := by
  have : a.empty = false := by simp [Arg.empty, held_of st]
  rw [get_plain E N a p hp this hv]
  have h := takeFrom_binding r sd st a.rvalue p hp hu ht
  exact ⟨fun e => e ▸ h, fun h' => h.unique r sd h'⟩

/-- C46, every outcome, for an argument that is a variant standing for something. -/
theorem C46_variant_exact {rank : TypeId → Nat} {E : Env} (r : Reachable rank E.w) (N : Nest) (a : Arg) {q : CV} {x : Addr}
    (f : Fine E a.value) (st : Stands a.value (.base N.vt q) x) (hN : N.vt.kind = .cls) (sd : Sound E (N.inner x)) {u : CType} {y : Addr}
    (si : Stands (N.inner x) u y) (p : RType) (hp : ParamOk p) (hu : u.pointerArity < 65536) (ht : p.t.pointerArity < 65536) (R : Ret Bound) :
    (q.c = true ∧ (p.ref = .rref ∨ (p.ref = .lref ∧ ¬IsConst p.t)) → a.get E N p = .throw .badVariantCast) ∧
    (¬(q.c = true ∧ (p.ref = .rref ∨ (p.ref = .lref ∧ ¬IsConst p.t))) → (a.get E N p = R ↔ Binding E (N.inner x) u a.rvalue p R)) := by
  obtain ⟨h1, h2⟩ := variant_steps r N a f st hN p hp
  refine ⟨fun h => h2 h.1 h.2, fun h => ?_⟩
  rw [h1 ?_]
  · have h := takeFrom_binding r sd si a.rvalue p hp hu ht
    exact ⟨fun e => e ▸ h, fun h' => h.unique r sd h'⟩
  · cases hq : q.c with
    | false => exact .inr (.inr rfl)
    | true =>
      cases hr : p.ref with
      | none => exact .inl rfl
      | rref => exact absurd ⟨hq, .inl hr⟩ h
      | lref => exact .inr (.inl ⟨Classical.byContradiction fun hc => h ⟨hq, .inr ⟨hr, hc⟩⟩, rfl⟩)

/-- C46: an argument that is an empty variant binds to nothing: `bad_variant_convert` where a converted value would do, else
    `bad_variant_cast`. -/
theorem C46_empty_variant_argument {rank : TypeId → Nat} {E : Env} (r : Reachable rank E.w) (N : Nest) (a : Arg) {q : CV} {x : Addr}
    (f : Fine E a.value) (st : Stands a.value (.base N.vt q) x) (hN : N.vt.kind = .cls) (he : (N.inner x).held = none)
    (p : RType) (hp : ParamOk p) :
    (a.get E N p = .throw .badVariantConvert ↔
      p.ref = .none ∨ (p.ref = .lref ∧ IsConst p.t) ∨ (p.ref = .rref ∧ a.rvalue = true ∧ q.c = false)) ∧
    (a.get E N p = .throw .badVariantConvert ∨ a.get E N p = .throw .badVariantCast) := by
  obtain ⟨h1, h2⟩ := variant_steps r N a f st hN p hp
  have k1 := fun acc t c T => C42_empty E _ he acc t c T
  have k2 := fun c t b => C43_empty E _ he c t b
  by_cases h : p.ref = .none ∨ IsConst p.t ∧ p.ref = .lref ∨ q.c = false
  · rw [h1 h]
    unfold takeFrom
    cases hr : p.ref with
    | none => simp [(k2 _ _ true).1, Ret.bind]
    | lref =>
      by_cases hc : p.t.isConst = true
      · have := (isConst_iff _).1 hc
        simp [hc, (k1 .ref _ _ ⟨.none, p.t⟩).2.1, (k2 _ _ true).1, Ret.bind, this]
      · have : ¬IsConst p.t := fun h => hc ((isConst_iff _).2 h)
        cases a.rvalue <;> simp [hc, (k1 .ref _ true ⟨.none, p.t⟩).1, Ret.bind, this]
    | rref =>
      have hq : q.c = false := by
        rcases h with h | ⟨_, h⟩ | h
        · rw [hr] at h; cases h
        · rw [hr] at h; cases h
        · exact h
      cases a.rvalue <;> simp [(k1 .ref _ _ ⟨.none, p.t⟩).2.1, (k2 _ _ true).1, Ret.bind, hq]
  · have hq : q.c = true := by
      cases hq : q.c with
      | false => exact absurd (.inr (.inr hq)) h
      | true => rfl
    have hp' : p.ref = .rref ∨ (p.ref = .lref ∧ ¬IsConst p.t) := by
      cases hr : p.ref with
      | none => exact absurd (.inl hr) h
      | rref => exact .inl rfl
      | lref => exact .inr ⟨rfl, fun hc => h (.inr (.inl ⟨hc, hr⟩))⟩
    rw [h2 hq hp']
    refine ⟨⟨nofun, ?_⟩, .inr rfl⟩
    rintro (h' | ⟨h', h''⟩ | ⟨_, _, h'⟩)
    · exact absurd (.inl h') h
    · exact absurd (.inr (.inl ⟨h'', h'⟩)) h
    · rw [hq] at h'; cases h'

open ExV ExI in
example : (nest.inner 6000).held = none ∧
    (makeArg 1000 (.obj true (cls vt) 6000)).get env nest ⟨.none, Ex.int⟩ = .throw .badVariantConvert ∧
    (makeArg 1000 (.obj true (cls vt) 6000)).get env nest ⟨.lref, Ex.int⟩ = .throw .badVariantCast := by decide +kernel

-- a null `D *` passed for a `B *`, and looked into by name
open ExV ExI in
example : let E : Env := { env with info := fun _ => true }
    NullObject E vNull ∧ Stands vNull (.ptr ⟨false, false⟩ (cls D)) 3000 ∧
    (⟨false, vNull⟩ : Arg).get E nest ⟨.none, .ptr ⟨false, false⟩ (cls B)⟩ = .ub ∧
    (⟨false, vNull⟩ : Arg).get E nest ⟨.lref, .ptr ⟨true, false⟩ (cls B)⟩ = .ub ∧
    invokeNamed E nest fns (inst vNull) (nm "f") [] = .ub := by
  have st : Stands vNull (.ptr ⟨false, false⟩ (cls D)) 3000 := .inPlace (.ptr ⟨false, false⟩ (cls D)) rfl (by simp) (by decide)
  exact ⟨⟨D, Designates.pointer (E := { env with info := fun _ => true }) D ⟨false, false⟩ ⟨false, false⟩ 3000 rfl st, rfl⟩, st, by decide +kernel⟩

end Rtti.Props
