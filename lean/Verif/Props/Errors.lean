import Verif.Spec.Errors
import Verif.Lemmas.Errors
import Verif.Props.Define
import Verif.Props.Call
import Verif.Model.MetaCast
/-
C77: what is thrown, and what catches it.
-/
set_option autoImplicit false
namespace Rtti.Props
open Rtti Spec World Val

/-- C77: the handlers. `rtti::runtime_error` catches every exception of the library's own and no others;
    `rtti::bad_cast` the failed casts and conversions; `definition_error` the classes defined twice or not at all, but not
    invalid type ids. -/
theorem C77_handlers (c : ExcClass) :
    (Catches .runtimeError c ↔ c ≠ .exception ∧ c ≠ .stdRuntimeError ∧ c ≠ .stdLogicError ∧ c ≠ .stdOutOfRange) ∧
    (Catches .badCast c ↔ c = .badCast ∨ c = .badArgumentCast ∨ c = .badVariantCast ∨ c = .badVariantConvert ∨ c = .badMetaCast) ∧
    (Catches .badVariantCast c ↔ c = .badVariantCast ∨ c = .badVariantConvert) ∧
    (Catches .definitionError c ↔ c = .definitionError ∨ c = .unregisteredMetaclass ∨ c = .duplicateMetaclass) := by
  have up : ∀ {h c b : ExcClass}, Catches h c → c.base = some b → c ≠ h → Catches h b := by
    intro h c b k e n
    cases k with
    | same => exact absurd rfl n
    | derived e' k => rw [e] at e'; cases e'; exact k
  have top : ∀ {h : ExcClass}, Catches h .exception → h = .exception := by
    intro h k
    cases k with
    | same => rfl
    | derived e _ => cases e
  have r : ∀ {c}, Catches ExcClass.runtimeError c → c ≠ .stdRuntimeError ∧ c ≠ .exception ∧ c ≠ .stdLogicError ∧ c ≠ .stdOutOfRange := by
    intro c k
    refine ⟨?_, ?_, ?_, ?_⟩ <;> rintro rfl
    · cases top (up k rfl nofun)
    · cases top k
    · cases top (up k rfl nofun)
    · cases top (up (up k rfl nofun) rfl nofun)
  have rr : ∀ {h : ExcClass}, h ≠ .exception → h ≠ .stdRuntimeError → h ≠ .runtimeError → ¬Catches h .runtimeError := fun h1 h2 h3 k =>
    h1 (top (up (up k rfl (Ne.symm h3)) rfl (Ne.symm h2)))
  have low : ∀ {h : ExcClass}, h ≠ .exception → h ≠ .stdRuntimeError → ¬Catches h .stdRuntimeError := fun h1 h2 k =>
    h1 (top (up k rfl (Ne.symm h2)))
  have log : ∀ {h : ExcClass}, h ≠ .exception → h ≠ .stdLogicError → ¬Catches h .stdLogicError := fun h1 h2 k =>
    h1 (top (up k rfl (Ne.symm h2)))
  refine ⟨⟨fun k => ⟨(r k).2.1, (r k).1, (r k).2.2⟩, fun h => ?_⟩, ⟨fun k => ?_, fun h => ?_⟩, ⟨fun k => ?_, fun h => ?_⟩, ⟨fun k => ?_, fun h => ?_⟩⟩
  · obtain ⟨h1, h2, h3, h4⟩ := h
    cases c <;> first
      | (exact absurd rfl ‹_›)
      | (exact .same)
      | (exact .derived rfl .same)
      | (exact .derived rfl (.derived rfl .same))
      | (exact .derived rfl (.derived rfl (.derived rfl .same)))
  · cases c <;> simp
    all_goals first
      | exact absurd (top k) nofun
      | exact absurd k (low nofun nofun)
      | exact absurd k (log nofun nofun)
      | exact absurd (up k rfl nofun) (log nofun nofun)
      | exact absurd k (rr nofun nofun nofun)
      | exact absurd (up k rfl nofun) (rr nofun nofun nofun)
      | exact absurd (up (up k rfl nofun) rfl nofun) (rr nofun nofun nofun)
  · rcases h with rfl | rfl | rfl | rfl | rfl <;> first
      | (exact .same)
      | (exact .derived rfl .same)
      | (exact .derived rfl (.derived rfl .same))
  · cases c <;> simp
    all_goals first
      | exact absurd (top k) nofun
      | exact absurd k (low nofun nofun)
      | exact absurd k (log nofun nofun)
      | exact absurd (up k rfl nofun) (log nofun nofun)
      | exact absurd k (rr nofun nofun nofun)
      | exact absurd (up k rfl nofun) (rr nofun nofun nofun)
      | exact absurd (up (up k rfl nofun) rfl nofun) (rr nofun nofun nofun)
  · rcases h with rfl | rfl <;> first
      | (exact .same)
      | (exact .derived rfl .same)
  · cases c <;> simp
    all_goals first
      | exact absurd (top k) nofun
      | exact absurd k (low nofun nofun)
      | exact absurd k (log nofun nofun)
      | exact absurd (up k rfl nofun) (log nofun nofun)
      | exact absurd k (rr nofun nofun nofun)
      | exact absurd (up k rfl nofun) (rr nofun nofun nofun)
      | exact absurd (up (up k rfl nofun) rfl nofun) (rr nofun nofun nofun)
      | exact absurd (up (up (up k rfl nofun) rfl nofun) rfl nofun) (rr nofun nofun nofun)
  · rcases h with rfl | rfl | rfl <;> first
      | (exact .same)
      | (exact .derived rfl .same)

/-! ### defining -/

/-- C77: defining a class or a base class throws exactly when it has to be refused, and the exception says why; no other
    defining call throws. -/
theorem C77_define {rank : TypeId → Nat} {w : World} (h : Reachable rank w) (op : World.Op) (e : Err) :
    (w.step op).2 = .throw e ↔ DefRefused w op e := by
  have i := Inv.reachable h
  have fd : ∀ t c, w.find t = some c ↔ w.metaClass t = some c := by
    intro t c
    unfold World.find
    constructor
    · intro h
      split at h
      · exact h
      · cases h
    · intro h; rw [(i.mc t c h).1]; exact h
  have fn : ∀ t, w.find t = none ↔ w.metaClass t = none := by
    intro t
    cases hm : w.metaClass t with
    | none => cases hf : w.find t with
      | none => simp
      | some c => rw [(fd t c).1 hf] at hm; cases hm
    | some c => rw [(fd t c).2 hm]
  cases op with
  | registerType t =>
    refine ⟨fun h => ?_, fun h => nomatch h⟩
    simp only [step] at h
    split at h <;> cases h
  | createNamespace o n =>
    exact ⟨fun h => absurd h (getOrCreate_quiet _ _ _ _ _ _ _ (fun w e => getItem_quiet w _ _ _ e) e), fun h => nomatch h⟩
  | createEnum o n =>
    exact ⟨fun h => absurd h (getOrCreate_quiet _ _ _ _ _ _ _ (fun w e => getItem_quiet w _ _ _ e) e), fun h => nomatch h⟩
  | createMethod o s b =>
    refine ⟨fun h => ?_, fun h => nomatch h⟩
    simp only [step, createMethod] at h
    repeat' split at h
    · cases h
    · exact absurd h (getOrCreate_quiet _ _ _ _ _ _ _ (fun w e => getMethod_quiet w _ _ e) e)
    · cases h
  | createProperty o s b =>
    refine ⟨fun h => ?_, fun h => nomatch h⟩
    simp only [step, createProperty] at h
    repeat' split at h
    · cases h
    · exact absurd h (getOrCreate_quiet _ _ _ _ _ _ _ (fun w e => getProperty_quiet w _ _ e) e)
    · cases h
  | createConstructor o s b =>
    refine ⟨fun h => ?_, fun h => nomatch h⟩
    simp only [step, createConstructor] at h
    repeat' split at h
    · cases h
    · exact absurd h (getOrCreate_quiet _ _ _ _ _ _ _ (fun w e => getConstructor_quiet w _ _ e) e)
    · cases h
  | createClass o n t =>
    simp only [step, createClass]
    cases hg : w.getItem o .cls n with
    | throw e' => exact absurd hg (getItem_quiet w o .cls n e')
    | ub =>
      refine ⟨nofun, fun h => ?_⟩
      cases h with
      | classOfNoType h _ => rw [hg] at h; cases h
      | classTwice h _ => rw [hg] at h; cases h
    | diverge =>
      refine ⟨nofun, fun h => ?_⟩
      cases h with
      | classOfNoType h _ => rw [hg] at h; cases h
      | classTwice h _ => rw [hg] at h; cases h
    | val r =>
      cases r with
      | some p =>
        refine ⟨nofun, fun h => ?_⟩
        cases h with
        | classOfNoType h _ => rw [hg] at h; cases h
        | classTwice h _ => rw [hg] at h; cases h
      | none =>
        cases hv : w.valid t with
        | false =>
          refine ⟨fun h => ?_, fun h => ?_⟩
          · cases h; exact .classOfNoType hg hv
          · cases h with
            | classOfNoType => rfl
            | classTwice _ h => rw [fd] at h; rw [(i.mc _ _ h).1] at hv; cases hv
        | true =>
          cases hm : w.metaClass t with
          | some c =>
            refine ⟨fun h => ?_, fun h => ?_⟩
            · cases h; exact .classTwice hg ((fd t c).2 hm)
            · cases h with
              | classOfNoType _ h => rw [hv] at h; cases h
              | classTwice => rfl
          | none =>
            refine ⟨fun h => ?_, fun h => ?_⟩
            · simp only [Option.isSome, Bool.not_true, Bool.false_eq_true, if_false] at h
              exact absurd h (getOrCreate_quiet w o .cls n t (fun w => w.getItem o .cls n) _ (fun w e => getItem_quiet w _ _ _ e) e)
            cases h with
            | classOfNoType _ h => rw [hv] at h; cases h
            | classTwice _ h => rw [fd, hm] at h; cases h
  | addBase d t f =>
    simp only [step]
    by_cases hd : w.kind d = some .cls
    · rw [if_pos hd]
      unfold addBaseClass
      cases hv : w.valid t with
      | false =>
        refine ⟨fun h => ?_, fun h => ?_⟩
        · cases h; exact .baseOfNoType hd hv
        · cases h with
          | baseOfNoType => rfl
          | baseNotDefined _ h => rw [hv] at h; cases h
      | true =>
        cases hm : w.metaClass t with
        | none =>
          refine ⟨fun h => ?_, fun h => ?_⟩
          · cases h; exact .baseNotDefined hd hv ((fn t).2 hm)
          · cases h with
            | baseOfNoType _ h => rw [hv] at h; cases h
            | baseNotDefined => rfl
        | some b =>
          have hc := i.cm d hd
          have hvd := (i.mc _ _ hc).1
          refine ⟨fun h => ?_, fun h => ?_⟩
          · simp [addDerivedClass, upd_same, hvd, hc] at h
          · cases h with
            | baseOfNoType _ h => rw [hv] at h; cases h
            | baseNotDefined _ _ h => rw [fn, hm] at h; cases h
    · rw [if_neg hd]
      refine ⟨nofun, fun h => ?_⟩
      cases h with
      | baseOfNoType h _ => exact absurd h hd
      | baseNotDefined h _ _ => exact absurd h hd

/-- C77: a defining call that throws has changed nothing. -/
theorem C77_unchanged {rank : TypeId → Nat} {w : World} (h : Reachable rank w) (op : World.Op) (e : Err)
    (ht : (w.step op).2 = .throw e) : (w.step op).1 = w := by
  have k := (C77_define h op e).1 ht
  cases k with
  | classOfNoType hg hv => simp [step, createClass, hg, hv]
  | classTwice hg hf =>
    rename_i o n t c
    have hv : w.valid t = true ∧ w.metaClass t = some c := by
      unfold World.find at hf
      split at hf
      · rename_i h; exact ⟨h, hf⟩
      · cases hf
    simp [step, createClass, hg, hv.1, hv.2]
  | baseOfNoType hd hv => simp [step, addBaseClass, hd, hv]
  | baseNotDefined hd hv hf =>
    rename_i d t f
    have hm : w.metaClass t = none := by unfold World.find at hf; rwa [if_pos hv] at hf
    simp [step, addBaseClass, hd, hv, hm]

/-- C77: looking something up, asking about bases and casting never throw; in any state of the library. -/
theorem C77_lookup (w : World) (c : Ptr) (k : Cat) (n : Str) (b : Option Ptr) (a : Addr) (e : Err) :
    w.getItem c k n ≠ .throw e ∧ w.getMethod c n ≠ .throw e ∧ w.getProperty c n ≠ .throw e ∧ w.getConstructor c n ≠ .throw e ∧
    w.inheritedFrom c b ≠ .throw e ∧ w.cast c b a ≠ .throw e :=
  ⟨getItem_quiet _ _ _ _ _, getMethod_quiet _ _ _ _, getProperty_quiet _ _ _ _, getConstructor_quiet _ _ _ _, inheritedFrom_quiet _ _ _ _,
    cast_quiet _ _ _ _ _⟩

/-- C77: whatever a program does, with callbacks (which may throw) and attributes, an exception that arrives is the
    user's or caught as `rtti::runtime_error`. In particular `vector::at` never throws. -/
theorem C77_program (fuel : Nat) (cs : List Cmd) (e : Err) (h : (Lazy.run fuel cs Lazy.init).2 = .throw e) :
    Handled .runtimeError e.class := by
  have := (Lazy.Tame.execs (Lazy.Tame.check fuel) fuel cs Lazy.init Lazy.attrsOk_init).2
  cases e with
  | outOfRange => exact absurd h this
  | invalidTypeId => exact (C77_handlers _).1.2 ⟨nofun, nofun, nofun, nofun⟩
  | duplicateClass => exact (C77_handlers _).1.2 ⟨nofun, nofun, nofun, nofun⟩
  | unregisteredClass => exact (C77_handlers _).1.2 ⟨nofun, nofun, nofun, nofun⟩
  | definitionError => exact (C77_handlers _).1.2 ⟨nofun, nofun, nofun, nofun⟩
  | userError => trivial

example : DefRefused Ex.diamond (.createClass 1 ['E'] 4) .duplicateClass := .classTwice (c := 5) (by decide) (by decide)
example : DefRefused (Ex.diamond.run [.registerType 9]) (.addBase 5 9 id) .unregisteredClass :=
  .baseNotDefined (by decide) (by decide) (by decide)

example : (Lazy.run 6 [.op (.registerType 3), .op (.createClass 1 ['A'] 3),
      .install 2 [.setAttr 2 ['a'] 1, .setAttr 2 ['a'] 2, .op (.createClass 1 ['B'] 3)], .query (.attr 2 ['a'])] Lazy.init).2 = .throw .duplicateClass := by
  decide +kernel

/-! ### variants -/

/-- C77: `ref`, `cref`, `rref` fail with `bad_variant_cast`, nothing else; `is`, `data` and `canConvert` never throw. -/
theorem C77_casts (E : Env) (v : Vnt) (a : Access) (t : CType) (T : RType) (c : Bool) (e : Exc) :
    (reference E v a t = .throw e → e = .badVariantCast) ∧ is E v c T ≠ .throw e ∧ data E v c t ≠ .throw e ∧ canConvert E v c t ≠ .throw e := by
  refine ⟨metafuncCast_throw, metafuncIs_quiet _ _ _ _ _, data_quiet _ _ _ _ _, fun h => ?_⟩
  rcases bind_throw h with h | ⟨b, _, h⟩
  · exact metafuncIs_quiet _ _ _ _ _ h
  · split at h
    · cases h
    · split at h <;> cases h

/-- C77: `to` fails with `bad_variant_convert`, or with what the user's copy constructor or converter throws, or, only if
    the type cannot be copied, with a plain `runtime_error`. -/
theorem C77_to_partial (E : Env) (v : Vnt) (c : Bool) (t : CType) (e : Exc) (h : to E v c t = .throw e) :
    e = .badVariantConvert ∨ e = .user ∨ e = .runtimeError ∧ copyable t = false := metafuncTo_throw h

/-- C77: a parameter that can be copied is passed, or refused by a `bad_cast` (or an exception of the user's code). -/
theorem C77_argument_partial (E : Env) (N : Nest) (a : Arg) (p : RType) (hc : copyable p.t.decay = true) (e : Exc) (h : a.get E N p = .throw e) :
    Handled .badCast e.class := by
  rcases get_throw h with h | ⟨_, h⟩
  · rcases h with rfl | rfl | rfl | rfl
    · exact (C77_handlers _).2.1.2 (by simp)
    · exact (C77_handlers _).2.1.2 (by simp)
    · exact (C77_handlers _).2.1.2 (by simp)
    · trivial
  · rw [hc] at h; cases h

private theorem own {e : Exc} (h : Own e) : Handled .runtimeError e.class := by
  rcases h with (rfl | rfl | rfl | rfl) | rfl | rfl
  · exact (C77_handlers _).1.2 ⟨nofun, nofun, nofun, nofun⟩
  · exact (C77_handlers _).1.2 ⟨nofun, nofun, nofun, nofun⟩
  · exact (C77_handlers _).1.2 ⟨nofun, nofun, nofun, nofun⟩
  · trivial
  · exact (C77_handlers _).1.2 ⟨nofun, nofun, nofun, nofun⟩
  · exact (C77_handlers _).1.2 ⟨nofun, nofun, nofun, nofun⟩

/-- C77: calls, directly or by name, and reading and writing properties: every exception is the user's or caught as
    `rtti::runtime_error`. For all variants, arguments and functions, in any state of the library. -/
theorem C77_calls (E : Env) (N : Nest) (f : Fn) (fn : Ptr → Fn) (p : Property) (pr : Ptr → Property) (i : Inst) (v : Option Vnt)
    (v' : Option (Bool × Vnt)) (n : Str) (args : List Arg) (a : Arg) (e : Exc)
    (h : staticInvoke E N f args = .throw e ∨ methodInvoke E N f i args = .throw e ∨ invokeNamed E N fn i n args = .throw e ∨
      p.get E N v = .throw e ∨ p.set E N v' a = .throw e ∨ getNamed E N pr i.v n = .throw e ∨ setNamed E N pr i.v n a = .throw e) :
    Handled .runtimeError e.class := by
  rcases h with h | h | h | h | h | h | h
  · exact own (static_throw h)
  · exact own (method_throw h)
  · exact own (invokeNamed_throw h)
  · exact own (propGet_throw h)
  · exact own (propSet_throw h)
  · exact own (getNamed_throw h)
  · exact own (setNamed_throw h)

/-- C77: a wrong number of arguments is an `invoke_error`, before anything else is looked at. -/
theorem C77_count (E : Env) (N : Nest) (f : Fn) (args : List Arg) (e : Exc) (h : pack f.params.length args = .throw e) :
    e = .invokeError ∧ staticInvoke E N f args = .throw .invokeError ∧
    ∀ b c v, memberInvoke E N f b c v args = .throw .invokeError := by
  have := pack_throw h
  subst this
  refine ⟨rfl, ?_, fun b c v => ?_⟩
  · unfold staticInvoke; rw [h]; rfl
  · unfold memberInvoke; rw [h]; rfl

private theorem constInfo_quiet (ov : MetaCast.Overrider) (to : TypeId) (w : World) (p : Option MetaCast.Obj) (e : Err) :
    (MetaCast.constInfo ov to w p).2 ≠ .throw e := by
  intro h
  cases p with
  | none => cases h
  | some o =>
    simp only [MetaCast.constInfo] at h
    split at h
    · simp only at h
      exact cast_quiet _ _ _ _ _ h
    · cases h

/-- C77: `meta_cast` to a reference fails with `bad_meta_cast`, nothing else, and `rtti::bad_cast` catches it; to a pointer
    it never throws. In any state of the library. -/
theorem C77_meta_cast (ov : MetaCast.Overrider) (hasInfo : Bool) (to from_ : TypeId) (w : World) (o : MetaCast.Obj)
    (p : Option MetaCast.Obj) (e : Exc) (e' : Err) :
    ((MetaCast.constRef ov hasInfo to from_ w o).2 = .throw e ∨ (MetaCast.mutRef ov hasInfo to from_ w o).2 = .throw e →
      e = .badMetaCast ∧ Handled .badCast e.class ∧ ¬Handled .badVariantCast e.class) ∧
    (MetaCast.constPtr ov hasInfo to from_ w p).2 ≠ .throw e' ∧ (MetaCast.mutPtr ov hasInfo to from_ w p).2 ≠ .throw e' := by
  have q : ∀ p e', (MetaCast.constPtr ov hasInfo to from_ w p).2 ≠ .throw e' := by
    intro p e' h
    unfold MetaCast.constPtr at h
    split at h
    · exact constInfo_quiet _ _ _ _ _ h
    · cases h
  have q' : ∀ p e', (MetaCast.mutPtr ov hasInfo to from_ w p).2 ≠ .throw e' := by
    intro p e' h
    unfold MetaCast.mutPtr MetaCast.mutInfo at h
    split at h
    · exact constInfo_quiet _ _ _ _ _ h
    · cases h
  have d : ∀ r : Res Addr, (∀ e', r ≠ .throw e') → MetaCast.deref r = .throw e → e = .badMetaCast := by
    intro r hr h
    cases r with
    | throw e' => exact absurd rfl (hr e')
    | ub => cases h
    | diverge => cases h
    | val a =>
      simp only [MetaCast.deref, Ret.lift, Ret.bind] at h
      split at h <;> cases h
      rfl
  refine ⟨fun h => ?_, q _ _, q' _ _⟩
  have he : e = .badMetaCast := by
    rcases h with h | h
    · exact d _ (q _) h
    · exact d _ (q' _) h
  subst he
  refine ⟨rfl, (C77_handlers _).2.1.2 (by simp), fun k => ?_⟩
  rcases (C77_handlers _).2.2.1.1 k with k | k <;> cases k

example : (MetaCast.constRef (fun t => (t, id)) false 5 4 World.init ⟨100, 4, 100⟩).2 = .throw .badMetaCast := by decide

/-- C77 is false as stated: a conversion to a type that cannot be copied, and an argument for a parameter of such a
    type, fail with a plain `runtime_error`; `catch (rtti::bad_cast const &)` misses it, and so does every handler but those for `rtti::runtime_error`
    and its bases. -/
theorem C77_to_false :
    ∃ (E : Env) (v : Vnt) (t : CType), is E v false ⟨.none, t⟩ = .ok true ∧ (∃ a, reference E v .ref t = .ok a) ∧
      to E v false t = .throw .runtimeError ∧ (∃ f N, staticInvoke E N f [⟨false, v⟩] = .throw .runtimeError) ∧
      ∀ h, Handled h (Exc.class .runtimeError) ↔ h = .runtimeError ∨ h = .stdRuntimeError ∨ h = .exception := by
  refine ⟨ExV.env, ⟨some ⟨false, ExV.cls ExV.N⟩, 1000, 5000⟩, ExV.cls ExV.N, by decide +kernel, ⟨1000, by decide +kernel⟩, by decide +kernel,
    ⟨⟨none, false, [⟨.none, ExV.cls ExV.N⟩], none⟩, ExI.nest, by decide +kernel⟩, fun h => ⟨fun k => ?_, fun k => ?_⟩⟩
  · change Catches h .runtimeError at k
    cases k with
    | same => exact .inl rfl
    | derived e k =>
      cases e
      cases k with
      | same => exact .inr (.inl rfl)
      | derived e k =>
        cases e
        cases k with
        | same => exact .inr (.inr rfl)
        | derived e _ => cases e
  · rcases k with rfl | rfl | rfl
    · exact .same
    · exact .derived rfl .same
    · exact .derived rfl (.derived rfl .same)

end Rtti.Props
