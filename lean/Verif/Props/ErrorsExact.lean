import Verif.Props.Errors
import Verif.Props.Lazy
import Verif.Props.Invoke
/-
C77: exactly which handlers catch what the library throws.
-/
set_option autoImplicit false
namespace Rtti.Props
open Rtti Spec World Val

/-- the library's exception is caught by `catch (h const &)` -/
def CaughtBy (h : ExcClass) (o : Option ExcClass) : Prop := ∃ c, o = some c ∧ Catches h c

private theorem catches_iff {h c : ExcClass} : Catches h c ↔ h = c ∨ ∃ b, c.base = some b ∧ Catches h b := by
  constructor
  · intro k
    cases k with
    | same => exact .inl rfl
    | derived e k => exact .inr ⟨_, e, k⟩
  · rintro (rfl | ⟨b, e, k⟩)
    · exact .same
    · exact .derived e k

private theorem caught_some {h c : ExcClass} : CaughtBy h (some c) ↔ Catches h c :=
  ⟨fun ⟨_, e, k⟩ => by cases e; exact k, fun k => ⟨_, rfl, k⟩⟩

private theorem rt {h : ExcClass} : Catches h .runtimeError ↔ h = .runtimeError ∨ h = .stdRuntimeError ∨ h = .exception := by
  rw [catches_iff]; simp only [ExcClass.base, Option.some.injEq, exists_eq_left']
  rw [catches_iff]; simp only [ExcClass.base, Option.some.injEq, exists_eq_left']
  rw [catches_iff]; simp [ExcClass.base]

private theorem bc {h : ExcClass} : Catches h .badCast ↔ h = .badCast ∨ h = .runtimeError ∨ h = .stdRuntimeError ∨ h = .exception := by
  rw [catches_iff]; simp only [ExcClass.base, Option.some.injEq, exists_eq_left']; rw [rt]

private theorem de {h : ExcClass} : Catches h .definitionError ↔
    h = .definitionError ∨ h = .runtimeError ∨ h = .stdRuntimeError ∨ h = .exception := by
  rw [catches_iff]; simp only [ExcClass.base, Option.some.injEq, exists_eq_left']; rw [rt]

private theorem bvc {h : ExcClass} : Catches h .badVariantCast ↔
    h = .badVariantCast ∨ h = .badCast ∨ h = .runtimeError ∨ h = .stdRuntimeError ∨ h = .exception := by
  rw [catches_iff]; simp only [ExcClass.base, Option.some.injEq, exists_eq_left']; rw [bc]

/-- C77: the handlers that catch what a refused definition throws: for an unknown type `invalid_metatype_id` (which is no
    `definition_error`), for a second class of a type `duplicate_metaclass`, for a base class not defined yet
    `unregistered_metaclass`. -/
theorem C77_define_caught {rank : TypeId → Nat} {w : World} (r : Reachable rank w) (op : World.Op) :
    ((∃ e, (w.step op).2 = .throw e ∧ CaughtBy .invalidMetatypeId e.class) ↔
      (∃ o n t, op = .createClass o n t ∧ w.getItem o .cls n = .val none ∧ w.valid t = false) ∨
      ∃ d t f, op = .addBase d t f ∧ w.kind d = some .cls ∧ w.valid t = false) ∧
    ((∃ e, (w.step op).2 = .throw e ∧ CaughtBy .duplicateMetaclass e.class) ↔
      ∃ o n t c, op = .createClass o n t ∧ w.getItem o .cls n = .val none ∧ w.find t = some c) ∧
    ((∃ e, (w.step op).2 = .throw e ∧ CaughtBy .unregisteredMetaclass e.class) ↔
      ∃ d t f, op = .addBase d t f ∧ w.kind d = some .cls ∧ w.valid t = true ∧ w.find t = none) ∧
    ((∃ e, (w.step op).2 = .throw e ∧ CaughtBy .definitionError e.class) ↔
      (∃ o n t c, op = .createClass o n t ∧ w.getItem o .cls n = .val none ∧ w.find t = some c) ∨
      ∃ d t f, op = .addBase d t f ∧ w.kind d = some .cls ∧ w.valid t = true ∧ w.find t = none) := by
  have inv : ∀ h, CaughtBy h (Err.class .invalidTypeId) ↔ h = .invalidMetatypeId ∨ h = .runtimeError ∨ h = .stdRuntimeError ∨ h = .exception := by
    intro h
    rw [show Err.class .invalidTypeId = some .invalidMetatypeId from rfl, caught_some, catches_iff]
    simp only [ExcClass.base, Option.some.injEq, exists_eq_left']; rw [rt]
  have dup : ∀ h, CaughtBy h (Err.class .duplicateClass) ↔
      h = .duplicateMetaclass ∨ h = .definitionError ∨ h = .runtimeError ∨ h = .stdRuntimeError ∨ h = .exception := by
    intro h
    rw [show Err.class .duplicateClass = some .duplicateMetaclass from rfl, caught_some, catches_iff]
    simp only [ExcClass.base, Option.some.injEq, exists_eq_left']; rw [de]
  have unr : ∀ h, CaughtBy h (Err.class .unregisteredClass) ↔
      h = .unregisteredMetaclass ∨ h = .definitionError ∨ h = .runtimeError ∨ h = .stdRuntimeError ∨ h = .exception := by
    intro h
    rw [show Err.class .unregisteredClass = some .unregisteredMetaclass from rfl, caught_some, catches_iff]
    simp only [ExcClass.base, Option.some.injEq, exists_eq_left']; rw [de]
  have D := C77_define r op
  refine ⟨⟨?_, ?_⟩, ⟨?_, ?_⟩, ⟨?_, ?_⟩, ⟨?_, ?_⟩⟩
  · rintro ⟨e, h, k⟩
    cases (D e).1 h with
    | classOfNoType h1 h2 => exact .inl ⟨_, _, _, rfl, h1, h2⟩
    | classTwice h1 h2 => simp [dup] at k
    | baseOfNoType h1 h2 => exact .inr ⟨_, _, _, rfl, h1, h2⟩
    | baseNotDefined h1 h2 h3 => simp [unr] at k
  · rintro (⟨o, n, t, rfl, h1, h2⟩ | ⟨d, t, f, rfl, h1, h2⟩)
    · exact ⟨_, (D _).2 (.classOfNoType h1 h2), by simp [inv]⟩
    · exact ⟨_, (D _).2 (.baseOfNoType h1 h2), by simp [inv]⟩
  · rintro ⟨e, h, k⟩
    cases (D e).1 h with
    | classOfNoType h1 h2 => simp [inv] at k
    | classTwice h1 h2 => exact ⟨_, _, _, _, rfl, h1, h2⟩
    | baseOfNoType h1 h2 => simp [inv] at k
    | baseNotDefined h1 h2 h3 => simp [unr] at k
  · rintro ⟨o, n, t, c, rfl, h1, h2⟩
    exact ⟨_, (D _).2 (.classTwice h1 h2), by simp [dup]⟩
  · rintro ⟨e, h, k⟩
    cases (D e).1 h with
    | classOfNoType h1 h2 => simp [inv] at k
    | classTwice h1 h2 => simp [dup] at k
    | baseOfNoType h1 h2 => simp [inv] at k
    | baseNotDefined h1 h2 h3 => exact ⟨_, _, _, rfl, h1, h2, h3⟩
  · rintro ⟨d, t, f, rfl, h1, h2, h3⟩
    exact ⟨_, (D _).2 (.baseNotDefined h1 h2 h3), by simp [unr]⟩
  · rintro ⟨e, h, k⟩
    cases (D e).1 h with
    | classOfNoType h1 h2 => simp [inv] at k
    | classTwice h1 h2 => exact .inl ⟨_, _, _, _, rfl, h1, h2⟩
    | baseOfNoType h1 h2 => simp [inv] at k
    | baseNotDefined h1 h2 h3 => exact .inr ⟨_, _, _, rfl, h1, h2, h3⟩
  · rintro (⟨o, n, t, c, rfl, h1, h2⟩ | ⟨d, t, f, rfl, h1, h2, h3⟩)
    · exact ⟨_, (D _).2 (.classTwice h1 h2), by simp [dup]⟩
    · exact ⟨_, (D _).2 (.baseNotDefined h1 h2 h3), by simp [unr]⟩

example : ((Ex.diamond.step (.createClass 1 ['E'] 4)).2 = .throw .duplicateClass) ∧ Ex.diamond.find 4 = some 5 := by decide

/-- C77: the handlers that catch what looking into a variant throws: those of `bad_variant_cast`. -/
theorem C77_cast_caught (E : Env) (v : Vnt) (a : Access) (t : CType) (e : Exc) (h : reference E v a t = .throw e) (H : ExcClass) :
    CaughtBy H e.class ↔ H = .badVariantCast ∨ H = .badCast ∨ H = .runtimeError ∨ H = .stdRuntimeError ∨ H = .exception := by
  rw [(C77_casts E v a t ⟨.none, t⟩ false e).1 h, show Exc.class .badVariantCast = some .badVariantCast from rfl, caught_some, bvc]

/-- C77: the handlers that catch what a conversion throws of its own: those of `bad_variant_convert`. -/
theorem C77_to_caught (E : Env) (v : Vnt) (c : Bool) (t : CType) (ht : copyable t = true) (e : Exc) (h : to E v c t = .throw e)
    (hu : e ≠ .user) (H : ExcClass) : CaughtBy H e.class ↔
      H = .badVariantConvert ∨ H = .badVariantCast ∨ H = .badCast ∨ H = .runtimeError ∨ H = .stdRuntimeError ∨ H = .exception := by
  rcases C77_to_partial E v c t e h with rfl | rfl | ⟨_, h⟩
  · rw [show Exc.class .badVariantConvert = some .badVariantConvert from rfl, caught_some, catches_iff]
    simp only [ExcClass.base, Option.some.injEq, exists_eq_left']; rw [bvc]
  · exact absurd rfl hu
  · rw [ht] at h; cases h

/-- C77: the handlers that catch what asking for an argument that was not given throws: those of `bad_argument_cast`. -/
theorem C77_missing_caught (E : Env) (N : Nest) (a : Arg) (p : RType) (ha : a.empty = true) (H : ExcClass) :
    ∃ e, a.get E N p = .throw e ∧
      (CaughtBy H e.class ↔ H = .badArgumentCast ∨ H = .badCast ∨ H = .runtimeError ∨ H = .stdRuntimeError ∨ H = .exception) := by
  refine ⟨.badArgumentCast, by simp [Arg.get, ha], ?_⟩
  rw [show Exc.class .badArgumentCast = some .badArgumentCast from rfl, caught_some, catches_iff]
  simp only [ExcClass.base, Option.some.injEq, exists_eq_left']; rw [bc]

/-- C77: the handlers that catch a call with the wrong number of arguments: those of `invoke_error`, which is no `bad_cast`. -/
theorem C77_count_caught (E : Env) (N : Nest) (f : Fn) (args : List Arg) (e : Exc) (h : pack f.params.length args = .throw e) (H : ExcClass) :
    ∃ e', staticInvoke E N f args = .throw e' ∧
      (CaughtBy H e'.class ↔ H = .invokeError ∨ H = .runtimeError ∨ H = .stdRuntimeError ∨ H = .exception) := by
  refine ⟨.invokeError, (C77_count E N f args e h).2.1, ?_⟩
  rw [show Exc.class .invokeError = some .invokeError from rfl, caught_some, catches_iff]
  simp only [ExcClass.base, Option.some.injEq, exists_eq_left']; rw [rt]

/-- C77: the handlers that catch a failed `meta_cast` to a reference: those of `bad_meta_cast`. -/
theorem C77_meta_cast_caught (H : ExcClass) (r : Res Addr) (hr : r = .val 0) :
    ∃ e, MetaCast.deref r = .throw e ∧
      (CaughtBy H e.class ↔ H = .badMetaCast ∨ H = .badCast ∨ H = .runtimeError ∨ H = .stdRuntimeError ∨ H = .exception) := by
  subst hr
  refine ⟨.badMetaCast, rfl, ?_⟩
  rw [show Exc.class .badMetaCast = some .badMetaCast from rfl, caught_some, catches_iff]
  simp only [ExcClass.base, Option.some.injEq, exists_eq_left']; rw [bc]

/-- C77: the handlers that catch a call by a name nobody has: those of a plain `runtime_error`, so neither `invoke_error` nor
    `bad_cast`. -/
theorem C77_unknown_name_caught {rank : TypeId → Nat} {E : Env} (r : Reachable rank E.w) (N : Nest) (fn : Ptr → Fn) (i : Inst) (args : List Arg)
    (hn : ¬NullObject E i.v) (name : Str) (h0 : name ≠ []) (h : ∀ d a m, ClassOf E i.v d → Reaches E.w d a → ¬OwnMethod E.w name a m)
    (H : ExcClass) :
    ∃ e, invokeNamed E N fn i name args = .throw e ∧
      (CaughtBy H e.class ↔ H = .runtimeError ∨ H = .stdRuntimeError ∨ H = .exception) := by
  refine ⟨.runtimeError, (C45_invoke_partial r N fn i args hn name h0).2.1 h, ?_⟩
  rw [show Exc.class .runtimeError = some .runtimeError from rfl, caught_some, rt]

/-- C77: the handlers that catch a second callback for a namespace or class whose first has not run: those of a plain
    `definition_error`. -/
theorem C77_install_caught (fuel fuel' : Nat) (cs : List Cmd) (p : Nat) (b : List Cmd)
    (hc : (after fuel cs).w.isContainer p = true)
    (h : startedFor p (after fuel cs).log ≠ installedFor p (after fuel cs).log) (H : ExcClass) :
    ∃ e, (Lazy.run fuel' [.install p b] (after fuel cs)).2 = .throw e ∧
      (CaughtBy H e.class ↔ H = .definitionError ∨ H = .runtimeError ∨ H = .stdRuntimeError ∨ H = .exception) := by
  refine ⟨.definitionError, by rw [C35_second_install_throws fuel fuel' cs p b hc h], ?_⟩
  rw [show Err.class .definitionError = some .definitionError from rfl, caught_some, de]

open ExV ExI in
/-- each of these happens -/
example : reference env vI .ref (cls D) = .throw .badVariantCast ∧ to env vI false (cls D) = .throw .badVariantConvert ∧
    staticInvoke env nest ⟨none, false, [⟨.none, Ex.int⟩], none⟩ [] = .throw .invokeError ∧
    (makeArg 700 (.missing false)).empty = true := by decide +kernel

end Rtti.Props
