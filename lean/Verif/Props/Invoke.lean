import Verif.Lemmas.Invoke
import Verif.Props.Classes
/-
C45-C50: arguments, calls, properties.
-/
set_option autoImplicit false
namespace Rtti.Props
open Rtti Spec Val

/-! ### C45 -/

/-- the class searched is the registered class of the complete object; without one there is `runtime_error` -/
theorem C45_class_partial {rank : TypeId → Nat} {E : Env} (r : Reachable rank E.w) {v : Vnt} (hn : ¬NullObject E v) :
    (∀ d, memberClass E v = .ok d ↔ ClassOf E v d) ∧
    ((∀ d, ¬ClassOf E v d) → memberClass E v = .throw .runtimeError) := by
  have inv : E.w.find 0 = none := by simp [World.find, (World.Inv.reachable r).valid0]
  rcases classInfo_cases E v with ⟨b, x, hd, e⟩ | ⟨hd, e⟩
  · obtain ⟨t, i, ei, hc⟩ : ∃ t i, classInfo E v = .ok (t, i) ∧ Complete E b x t i := by
      rw [e]
      unfold objectInfo Complete
      cases hi : E.info b with
      | false => exact ⟨_, _, rfl, by simp⟩
      | true =>
        have : x ≠ 0 := fun h => hn ⟨b, h ▸ hd, hi⟩
        exact ⟨(E.dyn b x).1, (E.dyn b x).2, by simp [this], by simp⟩
    have hcl : ∀ d, ClassOf E v d ↔ E.w.find t = some d := by
      intro d
      constructor
      · rintro ⟨b', x', t', i', h1, h2, h3⟩
        obtain ⟨rfl, rfl⟩ := hd.unique h1
        have : t' = t := by
          unfold Complete at h2 hc
          split at h2 <;> simp_all <;> (rw [← hc] at h2; cases h2; rfl)
        exact this ▸ h3
      · exact fun h => ⟨b, x, t, i, hd, hc, h⟩
    have hm : memberClass E v = match E.w.find t with | some c => .ok c | none => .throw .runtimeError := by
      unfold memberClass metaClass
      rw [ei]
      cases hd with
      | object q _ hb st =>
        rw [if_neg (held_of st), isClass_of st, isClassPtr_of st]
        simp [CType.baseType, CType.isPointer, hb, Ret.bind]
        rfl
      | pointer q q' a hb st =>
        rw [if_neg (held_of st), isClass_of st, isClassPtr_of st]
        simp [CType.baseType, CType.isPointer, hb, CType.pointerArity, Ret.bind]
        rfl
    rw [hm]
    cases hf : E.w.find t with
    | none => simp [hcl, hf]
    | some c => exact ⟨fun d => by simp [hcl, hf], fun h => absurd ((hcl c).2 hf) (h c)⟩
  · have hcl : ∀ d, ¬ClassOf E v d := fun d ⟨b, x, _, _, h, _⟩ => hd b x h
    have hm : memberClass E v = .throw .runtimeError := by
      unfold memberClass metaClass
      rw [e]
      simp only [Ret.bind, inv]
      split
      · rfl
      · split <;> rfl
    simp [hm, hcl]

/-- C45: `variant::invoke` calls the method of that name of the class of the complete object, itself or inherited;
    without such a class or method it throws `runtime_error`. (Partial: a null pointer to a class with `classInfo()` is
    undefined behaviour.) -/
theorem C45_invoke_partial {rank : TypeId → Nat} {E : Env} (r : Reachable rank E.w) (N : Nest) (fn : Ptr → Fn) (i : Inst) (args : List Arg)
    (hn : ¬NullObject E i.v) (name : Str) (h0 : name ≠ []) :
    (∀ d m, ClassOf E i.v d → Finds E.w (OwnMethod E.w name) d m → invokeNamed E N fn i name args = methodInvoke E N (fn m) i args) ∧
    ((∀ d a m, ClassOf E i.v d → Reaches E.w d a → ¬OwnMethod E.w name a m) → invokeNamed E N fn i name args = .throw .runtimeError) ∧
    invokeNamed E N fn i [] args = .throw .runtimeError := by
  obtain ⟨h1, h2⟩ := C45_class_partial r hn
  have kd : ∀ d, ClassOf E i.v d → E.w.kind d = some .cls := fun d ⟨_, _, _, _, _, _, h⟩ => ((World.Inv.reachable r).find_cls h).1
  unfold invokeNamed
  refine ⟨fun d m hd hm => ?_, fun h => ?_, ?_⟩
  · rw [(h1 d).2 hd]
    simp only [Ret.bind]
    rw [((C29_methods r (kd d hd) h0).2.1 m).2 hm]
    rfl
  · by_cases hc : ∃ d, ClassOf E i.v d
    · obtain ⟨d, hd⟩ := hc
      rw [(h1 d).2 hd]
      simp only [Ret.bind]
      rw [(C29_methods r (kd d hd) h0).2.2.1.2 fun a m => h d a m hd]
      rfl
    · rw [h2 fun d hd => hc ⟨d, hd⟩]; rfl
  · by_cases hc : ∃ d, ClassOf E i.v d
    · obtain ⟨d, hd⟩ := hc
      rw [(h1 d).2 hd]
      simp only [Ret.bind]
      rw [(C29_empty_name r (kd d hd)).1]
      rfl
    · rw [h2 fun d hd => hc ⟨d, hd⟩]; rfl

/-- C45: the same for `get_property` -/
theorem C45_get_partial {rank : TypeId → Nat} {E : Env} (r : Reachable rank E.w) (N : Nest) (pr : Ptr → Property) (v : Vnt)
    (hn : ¬NullObject E v) (name : Str) (h0 : name ≠ []) :
    (∀ d m, ClassOf E v d → Finds E.w (OwnProperty E.w name) d m → getNamed E N pr v name = (pr m).get E N (some v)) ∧
    ((∀ d a m, ClassOf E v d → Reaches E.w d a → ¬OwnProperty E.w name a m) → getNamed E N pr v name = .throw .runtimeError) ∧
    getNamed E N pr v [] = .throw .runtimeError := by
  obtain ⟨h1, h2⟩ := C45_class_partial r hn
  have kd : ∀ d, ClassOf E v d → E.w.kind d = some .cls := fun d ⟨_, _, _, _, _, _, h⟩ => ((World.Inv.reachable r).find_cls h).1
  unfold getNamed
  refine ⟨fun d m hd hm => ?_, fun h => ?_, ?_⟩
  · rw [(h1 d).2 hd]
    simp only [Ret.bind]
    rw [((C29_properties r (kd d hd) h0).2.1 m).2 hm]
    rfl
  · by_cases hc : ∃ d, ClassOf E v d
    · obtain ⟨d, hd⟩ := hc
      rw [(h1 d).2 hd]
      simp only [Ret.bind]
      rw [(C29_properties r (kd d hd) h0).2.2.1.2 fun a m => h d a m hd]
      rfl
    · rw [h2 fun d hd => hc ⟨d, hd⟩]; rfl
  · by_cases hc : ∃ d, ClassOf E v d
    · obtain ⟨d, hd⟩ := hc
      rw [(h1 d).2 hd]
      simp only [Ret.bind]
      rw [(C29_empty_name r (kd d hd)).2]
      rfl
    · rw [h2 fun d hd => hc ⟨d, hd⟩]; rfl

/-- C45: the same for `set_property`; throwing, it has not assigned or called anything -/
theorem C45_set_partial {rank : TypeId → Nat} {E : Env} (r : Reachable rank E.w) (N : Nest) (pr : Ptr → Property) (v : Vnt) (a : Arg)
    (hn : ¬NullObject E v) (name : Str) (h0 : name ≠ []) :
    (∀ d m, ClassOf E v d → Finds E.w (OwnProperty E.w name) d m → setNamed E N pr v name a = (pr m).set E N (some (false, v)) a) ∧
    ((∀ d a m, ClassOf E v d → Reaches E.w d a → ¬OwnProperty E.w name a m) → setNamed E N pr v name a = .throw .runtimeError) ∧
    setNamed E N pr v [] a = .throw .runtimeError := by
  obtain ⟨h1, h2⟩ := C45_class_partial r hn
  have kd : ∀ d, ClassOf E v d → E.w.kind d = some .cls := fun d ⟨_, _, _, _, _, _, h⟩ => ((World.Inv.reachable r).find_cls h).1
  unfold setNamed
  refine ⟨fun d m hd hm => ?_, fun h => ?_, ?_⟩
  · rw [(h1 d).2 hd]
    simp only [Ret.bind]
    rw [((C29_properties r (kd d hd) h0).2.1 m).2 hm]
    rfl
  · by_cases hc : ∃ d, ClassOf E v d
    · obtain ⟨d, hd⟩ := hc
      rw [(h1 d).2 hd]
      simp only [Ret.bind]
      rw [(C29_properties r (kd d hd) h0).2.2.1.2 fun a m => h d a m hd]
      rfl
    · rw [h2 fun d hd => hc ⟨d, hd⟩]; rfl
  · by_cases hc : ∃ d, ClassOf E v d
    · obtain ⟨d, hd⟩ := hc
      rw [(h1 d).2 hd]
      simp only [Ret.bind]
      rw [(C29_empty_name r (kd d hd)).2]
      rfl
    · rw [h2 fun d hd => hc ⟨d, hd⟩]; rfl

/-- C45: an empty variant, and one standing for neither a class nor a class pointer, has no members -/
theorem C45_no_class {rank : TypeId → Nat} {E : Env} (r : Reachable rank E.w) (N : Nest) (fn : Ptr → Fn) (pr : Ptr → Property) (i : Inst) (name : Str) (args : List Arg) (a : Arg)
    (h : ∀ b x, ¬Designates E i.v b x) :
    invokeNamed E N fn i name args = .throw .runtimeError ∧ getNamed E N pr i.v name = .throw .runtimeError ∧
    setNamed E N pr i.v name a = .throw .runtimeError := by
  have hn : ¬NullObject E i.v := fun ⟨b, hb, _⟩ => h b 0 hb
  have := (C45_class_partial r hn).2 fun d ⟨b, x, _, _, hb, _⟩ => h b x hb
  simp [invokeNamed, getNamed, setNamed, this, Ret.bind]

namespace ExI
open ExV

/-- `rtti::variant`; no variants inside variants -/
def vt : Base := ⟨900, .cls, 24, all⟩
def nest : Nest := ⟨vt, fun a => if a = 5000 then ⟨some ⟨true, Ex.int⟩, 5000, 710⟩ else ⟨none, 0, 0⟩⟩
/-- `void B::f()` -/
def f6 : Fn := ⟨some B, false, [], none⟩
/-- `void R::g(int) const` -/
def f9 : Fn := ⟨some R, true, [⟨.none, Ex.int⟩], none⟩
def fns (p : Ptr) : Fn := if p = 6 then f6 else f9
def inst (v : Vnt) : Inst := ⟨false, v, ⟨false, v⟩⟩
def anInt : Arg := makeArg 700 (.obj true Ex.int 710)
/-- `int` member of `B` at offset 4 -/
def field : Property := .field B Ex.int 4
def constField : Property := .field B (.base Ex.intB ⟨true, false⟩) 4
def nm (s : String) : Str := s.toList

theorem fineD : Fine env vD := ⟨soundD, ⟨_, _, standsD, sh_base _ _⟩, fun ⟨_, _, h⟩ => by cases h⟩
theorem finePD : Fine env vPD := ⟨soundPD, ⟨_, _, standsPD, sh_ptr _ _ _⟩, fun ⟨_, _, h⟩ => by cases h⟩
theorem classD : ClassOf env vD 5 := ⟨D, 5000, 4, 5000, .object _ _ _ rfl standsD, rfl, by decide +kernel⟩

end ExI

open ExV ExI in
/-- `g` is found in the second base of `D`, `f` and `p` in the base of its first base -/
example : ClassOf env vD 5 ∧
    invokeNamed env nest fns (inst vD) (nm "f") [] = .ok (.called (some (.at 5000)) []) ∧
    invokeNamed env nest fns (inst vD) (nm "g()") [anInt] = .ok (.called (some (.at 5008)) [.value (.copyOf 710)]) ∧
    invokeNamed env nest fns (inst vPD) (nm "g") [anInt] = .ok (.called (some (.at 5008)) [.value (.copyOf 710)]) ∧
    invokeNamed env nest fns (inst vD) (nm "h") [] = .throw .runtimeError ∧
    invokeNamed env nest fns (inst vI) (nm "f") [] = .throw .runtimeError ∧
    getNamed env nest (fun _ => field) vD (nm "p") = .ok (.ref (.base Ex.intB ⟨true, false⟩) ⟨.at 5000, 4⟩) ∧
    setNamed env nest (fun _ => field) vD (nm "p") anInt = .ok (.assigned ⟨.at 5000, 4⟩ (.copyOf 710)) ∧
    setNamed env nest (fun _ => field) vD (nm "q") anInt = .throw .runtimeError := ⟨classD, by decide +kernel⟩

/-! ### C46 -/

/-- C46: a missing argument -/
theorem C46_missing (E : Env) (N : Nest) (self : Addr) (junk : Bool) (p : RType) :
    (makeArg self (.missing junk)).get E N p = .throw .badArgumentCast := by simp [makeArg, Arg.get, Arg.empty]

/-- C46: an lvalue does not bind to `T&&`, an rvalue does not bind to `T&`; whatever the types. -/
theorem C46_category (E : Env) (N : Nest) (self : Addr) (l : Bool) (t : CType) (x : Addr) (p : RType) :
    (l = true → p.ref = .rref → (makeArg self (.obj l t x)).get E N p = .throw .badVariantCast) ∧
    (l = false → p.ref = .lref → ¬IsConst p.t → (makeArg self (.obj l t x)).get E N p = .throw .badVariantCast) := by
  refine ⟨fun h1 h2 => ?_, fun h1 h2 h3 => ?_⟩
  · simp [makeArg, Arg.get, Arg.empty, h1, h2]
  · have : p.t.isConst = false := by
      cases h : p.t.isConst with
      | false => rfl
      | true => exact absurd ((isConst_iff _).1 h) h3
    simp [makeArg, Arg.get, Arg.empty, h1, h2, this]

/-- C46, all outcomes, for an argument that is no variant. (Partial: a null pointer to a class with `classInfo()`, and 16 or
    more levels of pointers, are undefined behaviour or `std::terminate`.) -/
theorem C46_outcome_partial {rank : TypeId → Nat} {E : Env} (r : Reachable rank E.w) (N : Nest) (a : Arg) (hv : a.isVariant N = false)
    (f : Fine E a.value) (p : RType) (hp : ParamOk p) (hs : Shallow p.t) (R : Ret Bound) :
    a.get E N p = R ↔ Takes E a.value a.rvalue p R := by
  obtain ⟨u, x, st, _⟩ := f.stands
  have : a.empty = false := by simp [Arg.empty, held_of st]
  rw [get_plain E N a p hp this hv]
  exact takeFrom_iff r f a.rvalue p hp hs R

theorem variant_steps {rank : TypeId → Nat} {E : Env} (r : Reachable rank E.w) (N : Nest) (a : Arg) {q : CV} {x : Addr}
    (f : Fine E a.value) (st : Stands a.value (.base N.vt q) x) (hN : N.vt.kind = .cls) (p : RType) (hp : ParamOk p) :
    ((p.ref = .none ∨ IsConst p.t ∧ p.ref = .lref ∨ q.c = false) → a.get E N p = takeFrom E (N.inner x) a.rvalue p) ∧
    (q.c = true → p.ref = .rref ∨ (p.ref = .lref ∧ ¬IsConst p.t) → a.get E N p = .throw .badVariantCast) := by
  have he : a.empty = false := by simp [Arg.empty, held_of st]
  have hv : a.isVariant N = true := by
    obtain ⟨h, e, hu⟩ := st.held
    simp [Arg.isVariant, e, Held.type, ← hu, CType.fullDecay, CType.decay, hN, CType.removeAllCv]
  have hR : Refers E a.value (.base N.vt ⟨false, false⟩) x :=
    .same _ _ st ((sameDecay_base hN).2 rfl) (.inl (by intro n e h; cases h))
  have h1 : q.c = false → a.resolve E N true = .ok (N.inner x) := by
    intro hq
    unfold Arg.resolve
    simp only [hv, if_true, Bool.false_eq_true, if_false]
    rw [((C42_reference_partial r f.sound st f.null .ref _ (sh_base _ _) (sh_base _ _)).1 x).2 ⟨(fits_base st .ref (.inl rfl) _ _).2 (by simp [hq]), hR⟩]
    rfl
  have h2 : q.c = true → a.resolve E N true = .throw .badVariantCast := by
    intro hq
    obtain ⟨qc, qv⟩ := q
    simp at hq; subst hq
    unfold Arg.resolve
    simp only [hv, if_true, Bool.false_eq_true, if_false]
    rw [(C44_refused r f.sound st f.null N.vt false).1]
    rfl
  have h3 : a.resolve E N false = .ok (N.inner x) := by
    unfold Arg.resolve
    have : Fits (a.value.type (Access.cref).attr) ((Access.cref).target (.base N.vt ⟨false, false⟩)) := by
      rw [C42_fits_without_arrays st .cref _ (sh_base _ _) (sh_base _ _) (.base _ _) (.base _ _)]
      obtain ⟨h, e, hu⟩ := st.held
      rw [vtype e]
      simp only [Access.attr, Held.type, ← hu, addConst, Access.target]
      exact binds_base _ _ _ _ (fun _ => rfl)
    simp only [hv, if_true, Bool.false_eq_true, if_false]
    rw [((C42_reference_partial r f.sound st f.null .cref _ (sh_base _ _) (sh_base _ _)).1 x).2 ⟨this, hR⟩]
    rfl
  refine ⟨fun h => ?_, fun hq hr => ?_⟩
  · have hg : a.get E N p = takeFrom E (N.inner x) a.rvalue p := by
      unfold Arg.get takeFrom
      simp only [he, Bool.false_eq_true, if_false, decay_param hp]
      cases hr : p.ref with
      | none => simp only [h3]; rfl
      | lref =>
        by_cases hc : p.t.isConst = true
        · simp only [hc, h3, if_true]; rfl
        · have hq : q.c = false := by
            rcases h with h | ⟨h, _⟩ | h
            · rw [hr] at h; cases h
            · exact absurd ((isConst_iff _).2 h) hc
            · exact h
          simp only [hc, h1 hq, Bool.false_eq_true, if_false]; rfl
      | rref =>
        have hq : q.c = false := by
          rcases h with h | ⟨_, h⟩ | h
          · rw [hr] at h; cases h
          · rw [hr] at h; cases h
          · exact h
        simp only [h1 hq]; rfl
    exact hg
  · unfold Arg.get
    simp only [he, Bool.false_eq_true, if_false]
    rcases hr with hr | ⟨hr, hc⟩
    · simp only [hr, h2 hq]
      split <;> rfl
    · have : p.t.isConst = false := by
        cases h : p.t.isConst with
        | false => rfl
        | true => exact absurd ((isConst_iff _).1 h) hc
      simp only [hr, this, h2 hq, Bool.false_eq_true, if_false]
      split <;> rfl

/-- C46: an argument that is a variant is looked through: the parameter binds to what that variant stands for. A const
    variant does so only for `T const&` and `T`. -/
theorem C46_variant_partial {rank : TypeId → Nat} {E : Env} (r : Reachable rank E.w) (N : Nest) (a : Arg) {q : CV} {x : Addr}
    (f : Fine E a.value) (st : Stands a.value (.base N.vt q) x) (hN : N.vt.kind = .cls) (fi : Fine E (N.inner x))
    (p : RType) (hp : ParamOk p) (hs : Shallow p.t) (R : Ret Bound) :
    ((p.ref = .none ∨ IsConst p.t ∧ p.ref = .lref ∨ q.c = false) → (a.get E N p = R ↔ Takes E (N.inner x) a.rvalue p R)) ∧
    (q.c = true → p.ref = .rref ∨ (p.ref = .lref ∧ ¬IsConst p.t) → a.get E N p = .throw .badVariantCast) := by
  obtain ⟨h1, h2⟩ := variant_steps r N a f st hN p hp
  exact ⟨fun h => by rw [h1 h]; exact takeFrom_iff r fi a.rvalue p hp hs R, h2⟩

/-- C46: `T&` binds, from an object that is not an array or pointer, only to that object itself or to a base class subobject of it,
    and only if it is an lvalue and neither it is const nor anything is converted. -/
theorem C46_own_object_partial {rank : TypeId → Nat} {E : Env} (r : Reachable rank E.w) (N : Nest) {self : Addr} {l : Bool} {b : Base} {q : CV} {x : Addr}
    (hb : b.kind ≠ .func) (hv : b ≠ N.vt) (hself : self ≠ 0) (hw : E.load self = x) (hx : x ≠ 0) (p : RType) (hp : ParamOk p) (hs : Shallow p.t)
    (hr : p.ref = .lref) (hc : ¬IsConst p.t) (B : Bound) (h : (makeArg self (.obj l (.base b q) x)).get E N p = .ok B) :
    l = true ∧ q.c = false ∧ ∃ c v, p.t = .base c ⟨false, v⟩ ∧
      ((c = b ∧ B = .object x) ∨ (b.kind = .cls ∧ c.kind = .cls ∧ ∃ y, B = .object y ∧ Subobject E (makeArg self (.obj l (.base b q) x)).value c y)) := by
  generalize ha : makeArg self (.obj l (.base b q) x) = a at *
  have ha' : a = ⟨!l, ⟨some ⟨true, .base b q⟩, self, x⟩⟩ := by rw [← ha]; rfl
  obtain ⟨st, f⟩ := arg_fine (E := E) (v := a.value) hb hself hw hx (by rw [ha'])
  have hvar : a.isVariant N = false := by
    rw [ha']
    simp [Arg.isVariant, Held.type, Held.u, CType.fullDecay, CType.decay, hb, CType.removeAllCv, hv]
  have ht := (C46_outcome_partial r N a hvar f p hp hs _).1 h
  have hl : a.rvalue = !l := by rw [ha']
  generalize hRR : Ret.ok B = RR at ht
  cases ht with
  | rrefLvalue g => rw [hr] at g; cases g
  | rref y g => rw [hr] at g; cases g
  | rrefTo R g => rw [hr] at g; cases g
  | cref y g g' => exact absurd g' hc
  | crefTo R g g' => exact absurd g' hc
  | lrefRvalue => cases hRR
  | lrefNot => cases hRR
  | value R g => rw [hr] at g; cases g
  | lref y _ _ g ref =>
    cases hRR
    obtain ⟨hf, hR⟩ := ref
    have hbase : ∃ c v, p.t = .base c ⟨false, v⟩ ∧ ((c = b ∧ y = x) ∨ (b.kind = .cls ∧ c.kind = .cls ∧ Subobject E a.value c y)) := by
      cases hR with
      | same u y s hd hna =>
        obtain ⟨rfl, rfl⟩ := s.unique st
        cases ht : p.t with
        | base c qc =>
          rw [ht] at hd
          refine ⟨c, qc.v, ?_, ?_⟩
          · obtain ⟨c1, c2⟩ := qc
            cases c1 with
            | false => rfl
            | true => rw [ht] at hc; exact absurd (.base _ _) hc
          · rcases hd with ⟨e, e', h1, h2, _⟩ | ⟨b', q1, q2, _, e1, e2⟩
            · cases h1 with | func _ _ hf => exact absurd hf hb
            · cases e1; cases e2; exact .inl ⟨rfl, rfl⟩
        | ptr q1 t1 =>
          rw [ht] at hd
          rcases hd with ⟨e, e', h1, h2, _⟩ | ⟨b', q1, q2, _, e1, e2⟩
          · cases h1 with | func _ _ hf => exact absurd hf hb
          · cases e2
        | arr n e => exact absurd ht (hp.1 n e)
      | decayed n e y s => obtain ⟨e', _⟩ := s.unique st; cases e'
      | sub b' c q' r' x' y s hb' hc' hne et hsub h0 =>
        obtain ⟨e', rfl⟩ := s.unique st
        cases e'
        cases ht : p.t with
        | base c2 qc =>
          rw [ht] at et
          cases et
          refine ⟨c, qc.v, ?_, .inr ⟨hb', hc', hsub⟩⟩
          obtain ⟨c1, c2⟩ := qc
          cases c1 with
          | false => rfl
          | true => rw [ht] at hc; exact absurd (.base _ _) hc
        | ptr q1 t1 => rw [ht] at et; cases et
        | arr n e => exact absurd ht (hp.1 n e)
      | subPtr b' c q' q'' r' r'' x' y s => obtain ⟨e', _⟩ := s.unique st; cases e'
    obtain ⟨c, vo, et, hcase⟩ := hbase
    refine ⟨?_, ?_, c, vo, et, ?_⟩
    · rw [hl] at g; simpa using g
    · cases hq : q.c with
      | false => rfl
      | true =>
        have := (fits_base st .ref (.inl rfl) c ⟨false, false⟩).1
        rw [et] at hf
        exact absurd (this hf rfl hq) (by simp)
    · rcases hcase with ⟨h1, rfl⟩ | ⟨h1, h2, h3⟩
      · exact .inl ⟨h1, rfl⟩
      · exact .inr ⟨h1, h2, y, rfl, h3⟩

/-- C46: `T const&` refers to the caller's object itself when the types are the same -/
theorem C46_const_ref_own {rank : TypeId → Nat} {E : Env} (r : Reachable rank E.w) (N : Nest) {self : Addr} {l : Bool} {b : Base} {q : CV} {x : Addr}
    (hb : b.kind ≠ .func) (hv : b ≠ N.vt) (hself : self ≠ 0) (hw : E.load self = x) (hx : x ≠ 0) (vo : Bool) :
    (makeArg self (.obj l (.base b q) x)).get E N ⟨.lref, .base b ⟨true, vo⟩⟩ = .ok (.object x) := by
  generalize ha : makeArg self (.obj l (.base b q) x) = a at *
  have ha' : a = ⟨!l, ⟨some ⟨true, .base b q⟩, self, x⟩⟩ := by rw [← ha]; rfl
  obtain ⟨st, f⟩ := arg_fine (E := E) (v := a.value) hb hself hw hx (by rw [ha'])
  have hvar : a.isVariant N = false := by
    rw [ha']
    simp [Arg.isVariant, Held.type, Held.u, CType.fullDecay, CType.decay, hb, CType.removeAllCv, hv]
  refine (C46_outcome_partial r N a hvar f _ ⟨fun n e h => (by cases h), fun b' q' h => (by cases h; exact hb)⟩ (sh_base _ _) _).2 (.cref x rfl (.base _ _) ?_)
  refine ⟨?_, .same _ _ st (.inr ⟨b, _, _, hb, rfl, rfl⟩) (.inl (by intro n e h; cases h))⟩
  exact (fits_base st .refConst (.inr rfl) b ⟨false, false⟩).2 (by simp)

/-- C46: an empty variant as argument binds to nothing -/
theorem C46_empty_variant (E : Env) (v : Vnt) (h : v.held = none) (rv : Bool) (p : RType) :
    ∃ e, takeFrom E v rv p = .throw e ∧ (e = .badVariantCast ∨ e = .badVariantConvert) := by
  have h1 := fun acc t c T => C42_empty E v h acc t c T
  have h2 := fun c t b => C43_empty E v h c t b
  unfold takeFrom
  cases p.ref with
  | none => simp [(h2 _ _ true).1, Ret.bind]
  | lref =>
    by_cases hc : p.t.isConst = true
    · simp [hc, (h1 .ref _ _ ⟨.none, p.t⟩).2.1, (h2 _ _ true).1, Ret.bind]
    · cases rv <;> simp [hc, (h1 .ref _ true ⟨.none, p.t⟩).1, Ret.bind]
  | rref => cases rv <;> simp [(h1 .ref _ _ ⟨.none, p.t⟩).2.1, (h2 _ _ true).1, Ret.bind]

/-- `std::ref(x)` written as an argument is a temporary wrapper, so counts as an rvalue of type `T`: it binds to `T&&` (which
    may then move from the lvalue `x`) and is refused for `T&`. -/
theorem C46_reference_wrapper_false :
    let a := makeArg 1000 (.wrapper false (ExV.cls ExV.D) 5000)
    a.get ExV.env ExI.nest ⟨.rref, ExV.cls ExV.D⟩ = .ok (.object 5000) ∧
    a.get ExV.env ExI.nest ⟨.lref, ExV.cls ExV.D⟩ = .throw .badVariantCast := by decide +kernel

open ExV ExI in
example : ParamOk ⟨.lref, cls R⟩ ∧ Shallow (cls R) ∧ ¬IsConst (cls R) ∧
    (makeArg 1000 (.obj true (cls D) 5000)).get env nest ⟨.lref, cls R⟩ = .ok (.object 5008) ∧
    (makeArg 1000 (.obj false (cls D) 5000)).get env nest ⟨.rref, cls R⟩ = .ok (.object 5008) ∧
    (makeArg 1000 (.obj true (ccls D) 5000)).get env nest ⟨.lref, cls R⟩ = .throw .badVariantCast ∧
    (makeArg 1000 (.obj true (ccls D) 5000)).get env nest ⟨.lref, ccls R⟩ = .ok (.object 5008) ∧
    (makeArg 1000 (.obj true (ccls D) 5000)).get env nest ⟨.none, cls R⟩ = .ok (.value (.copyOf 5008)) ∧
    (makeArg 1000 (.obj true (cls D) 5000)).get env nest ⟨.lref, Ex.int⟩ = .throw .badVariantCast ∧
    (makeArg 1000 (.obj true (cls D) 5000)).get env nest ⟨.none, Ex.int⟩ = .throw .badVariantConvert ∧
    (makeArg 1000 (.obj true (cls vt) 5000)).get env nest ⟨.lref, Ex.int⟩ = .ok (.object 710) := by
  refine ⟨⟨fun n e h => (by cases h), fun b q h => (by cases h; decide)⟩, sh_base _ _, fun h => (by cases h), ?_⟩
  decide +kernel

/-! ### C47 -/

/-- what the check really counts: the arguments before the first missing one -/
theorem C47_leading (args : List Arg) (hl : args.length ≤ 10) (n : Nat) (hn : n ≤ 10) :
    ((∃ as, pack n args = .ok as) ↔ ∃ given rest, args = given ++ rest ∧ given.length = n ∧ (∀ a ∈ given, a.empty = false) ∧
      (rest = [] ∨ ∃ a r, rest = a :: r ∧ a.empty = true)) ∧
    ((¬∃ as, pack n args = .ok as) → pack n args = .throw .invokeError) := by
  have hpl : (pad args).length ≤ 10 := by simp [pad]
  have key := countDown_zero (pad args) hpl n hn
  have h1 : (∃ as, pack n args = .ok as) ↔ countDown (pad args) n = 0 := by
    unfold pack; by_cases h : countDown (pad args) n = 0 <;> simp [h]
  have h2 : pad args = args ++ List.replicate (10 - args.length) (⟨false, ⟨none, 0, 0⟩⟩ : Arg) := by
    unfold pad
    rw [List.take_append, List.take_of_length_le hl, List.take_replicate, Nat.min_eq_left (by omega)]
  have hem : ∀ a ∈ List.replicate (10 - args.length) (⟨false, ⟨none, 0, 0⟩⟩ : Arg), a.empty = true := by
    intro a ha
    rw [List.eq_of_mem_replicate ha]; rfl
  constructor
  · rw [h1, key]
    constructor
    · rintro ⟨g, r, e, hg, h3, h4⟩
      rw [h2] at e
      generalize List.replicate (10 - args.length) (⟨false, ⟨none, 0, 0⟩⟩ : Arg) = reps at e hem
      rcases List.append_eq_append_iff.1 e with ⟨m, e1, e2⟩ | ⟨m, e1, e2⟩
      · cases m with
        | nil => exact ⟨args, [], by simp, by simpa [e1] using hg, by simpa [e1] using h3, .inl rfl⟩
        | cons a m =>
          have x1 := h3 a (by simp [e1])
          have x2 := hem a (by simp [e2])
          rw [x1] at x2; cases x2
      · cases m with
        | nil => exact ⟨g, [], by simpa using e1, hg, h3, .inl rfl⟩
        | cons a m =>
          refine ⟨g, a :: m, e1, hg, h3, .inr ⟨a, m, rfl, ?_⟩⟩
          rcases h4 with rfl | ⟨a', r', e3, h5⟩
          · simp at e2
          · rw [e3] at e2; simp at e2; rw [← e2.1]; exact h5
    · rintro ⟨g, r, e, hg, h3, h4⟩
      refine ⟨g, r ++ List.replicate (10 - args.length) (⟨false, ⟨none, 0, 0⟩⟩ : Arg), by rw [h2, e]; simp, hg, h3, ?_⟩
      rcases h4 with rfl | ⟨a, r', rfl, h5⟩
      · cases h6 : 10 - args.length with
        | zero => exact .inl rfl
        | succ k => exact .inr ⟨_, _, rfl, rfl⟩
      · exact .inr ⟨a, _, rfl, h5⟩
  · intro h
    rw [h1] at h
    simp [pack, h]

/-- C47, if no argument follows a missing one: the check passes exactly for `n` arguments; otherwise `invoke_error` leaves before
    the instance or any argument is looked at. -/
theorem C47_partial (E : Env) (N : Nest) (f : Fn) (args : List Arg) (hl : args.length ≤ 10) (hn : f.params.length ≤ 10) (hg : NoGaps args) :
    ((∃ as, pack f.params.length args = .ok as) ↔ Supplied args f.params.length) ∧
    (¬Supplied args f.params.length → staticInvoke E N f args = .throw .invokeError ∧
      ∀ b isConst v, memberInvoke E N f b isConst v args = .throw .invokeError) := by
  have key := C47_leading args hl _ hn
  have h1 : (∃ as, pack f.params.length args = .ok as) ↔ Supplied args f.params.length := by
    rw [key.1]
    constructor
    · rintro ⟨g, r, e, h1, h2, h3⟩
      refine ⟨g, r, e, h1, h2, ?_⟩
      obtain ⟨n, g', r', e', g1, g2, g3⟩ := hg
      rcases h3 with rfl | ⟨a, r, rfl, h5⟩
      · simp
      · have : g.length = g'.length := by
          rw [e] at e'
          rcases List.append_eq_append_iff.1 e' with ⟨m, e1, e2⟩ | ⟨m, e1, e2⟩
          · cases m with
            | nil => simp [e1]
            | cons x m =>
              have x1 := g2 x (by simp [e1])
              simp at e2
              rw [← e2.1, h5] at x1; cases x1
          · cases m with
            | nil => simp [e1]
            | cons x m =>
              have x1 := h2 x (by simp [e1])
              have x2 := g3 x (by simp [e2])
              rw [x1] at x2; cases x2
        have := List.append_inj (e.symm.trans e') this
        rw [this.2]; exact g3
    · rintro ⟨g, r, e, h1, h2, h3⟩
      refine ⟨g, r, e, h1, h2, ?_⟩
      cases r with
      | nil => exact .inl rfl
      | cons a r => exact .inr ⟨a, r, rfl, h3 a (by simp)⟩
  refine ⟨h1, fun h => ?_⟩
  rw [← h1] at h
  have := key.2 h
  simp [staticInvoke, memberInvoke, this, Ret.bind]

open ExI in
example : ∃ as : List Arg, NoGaps as ∧ Supplied as 2 ∧ ¬Supplied as 1 ∧ as.length ≤ 10 := by
  refine ⟨[anInt, anInt], ⟨2, [anInt, anInt], [], rfl, rfl, by simp [anInt, makeArg, Arg.empty], by simp⟩,
    ⟨[anInt, anInt], [], rfl, rfl, by simp [anInt, makeArg, Arg.empty], by simp⟩, ?_, by decide⟩
  rintro ⟨g, r, e, h1, _, h3⟩
  obtain ⟨x, rfl⟩ := List.length_eq_one_iff.1 h1
  cases e
  exact absurd (h3 anInt (by simp)) (by decide)

/-- C47 is false with a gap: `f(1, {}, 2)` calls a function of one parameter, dropping the `2`. -/
theorem C47_false : let args := [ExI.anInt, makeArg 0 (.missing false), ExI.anInt]
    let f : Fn := ⟨none, false, [⟨.none, Ex.int⟩], none⟩
    ¬Supplied args 1 ∧ staticInvoke ExV.env ExI.nest f args = .ok (.called none [.value (.copyOf 710)]) := by
  refine ⟨?_, by decide +kernel⟩
  rintro ⟨g, r, e, h1, _, h3⟩
  obtain ⟨x, rfl⟩ := List.length_eq_one_iff.1 h1
  cases e
  exact absurd (h3 ExI.anInt (by simp)) (by decide)

/-- C47 is false for member functions of ten parameters: they can be defined, but `MetaMethod::invoke` and `variant::invoke` take
    at most ten arguments with the instance (metamethod_impl.h:9-10), so that every call is refused. -/
theorem C47_ten_parameters_false (E : Env) (N : Nest) (f : Fn) {b : Base} (hc : f.cls = some b) (hn : f.params.length = 10)
    (i : Inst) (args : List Arg) (hl : args.length + 1 ≤ 10) : methodInvoke E N f i args = .throw .invokeError := by
  have key := C47_leading args (by omega) 10 (Nat.le_refl _)
  have : pack f.params.length args = .throw .invokeError := by
    rw [hn]
    refine key.2 fun h => ?_
    obtain ⟨g, r, e, hg, _⟩ := key.1.1 h
    have := congrArg List.length e
    simp only [List.length_append] at this
    omega
  simp [methodInvoke, hc, memberInvoke, this, Ret.bind]

/-- C47: a static function without parameters is called when the one argument `MetaMethod::invoke` needs (without arguments it does
    not compile, metamethod_impl.h:13-16) is a missing one, and refused otherwise. -/
theorem C47_no_parameters (E : Env) (N : Nest) (f : Fn) (hc : f.cls = none) (hn : f.params = []) (i : Inst) (args : List Arg)
    (hl : args.length + 1 ≤ 10) :
    methodInvoke E N f i args = if i.arg.empty then .ok (.called none []) else .throw .invokeError := by
  have key := C47_leading (i.arg :: args) (by simpa using hl) 0 (by omega)
  unfold methodInvoke staticInvoke
  rw [hc, hn]
  cases he : i.arg.empty with
  | true =>
    obtain ⟨as, h⟩ := key.1.2 ⟨[], i.arg :: args, rfl, rfl, by simp, .inr ⟨_, _, rfl, he⟩⟩
    simp only [List.length_nil, h, Ret.bind, getAll, if_true]
  | false =>
    have : pack 0 (i.arg :: args) = .throw .invokeError := by
      refine key.2 fun h => ?_
      obtain ⟨g, r, e, hg, _, hr⟩ := key.1.1 h
      obtain rfl : g = [] := List.length_eq_zero_iff.1 hg
      simp only [List.nil_append] at e
      subst e
      rcases hr with hr | ⟨a, r, e, h'⟩
      · cases hr
      · cases e; rw [he] at h'; cases h'
    simp [this, Ret.bind]

open ExV ExI in
example : let f : Fn := ⟨some D, true, List.replicate 10 ⟨.none, Ex.int⟩, none⟩
    let g : Fn := ⟨none, false, [], none⟩
    methodInvoke env nest f ⟨false, vD, anInt⟩ (List.replicate 9 anInt) = .throw .invokeError ∧
    methodInvoke env nest { f with params := List.replicate 9 ⟨.none, Ex.int⟩ } ⟨false, vD, anInt⟩ (List.replicate 9 anInt) =
      .ok (.called (some (.at 5000)) (List.replicate 9 (.value (.copyOf 710)))) ∧
    methodInvoke env nest g ⟨false, vD, anInt⟩ [] = .throw .invokeError ∧
    methodInvoke env nest g ⟨false, vD, makeArg 0 (.missing true)⟩ [] = .ok (.called none []) := by decide +kernel

/-! ### C48 -/

/-- C48: the object a member function of class `b` runs on, found without a converter. -/
theorem C48_object_partial {rank : TypeId → Nat} {E : Env} (r : Reachable rank E.w) {v : Vnt} (f : Fine E v) (b : Base) (hb : b.kind = .cls)
    (method isConst : Bool) (a : Addr) (h0 : a ≠ 0) :
    (object E b method isConst v = .ok (some (.at a)) → Runs E b isConst (!method) v a) ∧
    (PtrCopies E → Runs E b isConst (!method) v a → object E b method isConst v = .ok (some (.at a))) := by
  obtain ⟨u, x, st, hu⟩ := f.stands
  constructor
  · intro h
    have hk : (describe (v.type .none)).isClass = true ∨ (describe (v.type .none)).isClassPtr = true := by
      refine Classical.byContradiction fun hk => ?_
      rw [not_or] at hk
      unfold object at h
      rw [if_neg (held_of st), if_neg hk.1, if_neg hk.2] at h
      cases h
    rw [isClass_iff st, isClassPtr_iff st] at hk
    cases u with
    | base c q =>
      have hc : c.kind = .cls := by simpa [CType.baseType, CType.isPointer] using hk
      obtain ⟨h1, h2⟩ := ((object_class r f st hc b hb method isConst).1 a).1 h
      exact .object c q x hc st (fun hw => h1 (by simpa using hw)) (h2.imp_right fun h => ⟨h.1, h.2.1⟩)
    | ptr q t =>
      cases t with
      | base c q' =>
        have hc : c.kind = .cls := by simpa [CType.baseType, CType.isPointer, CType.pointerArity] using hk
        obtain ⟨h1, h2⟩ := (object_ptr r f st hc b hb method isConst a h0).1 h
        exact .pointer c q q' x hc st (fun hw => h1 (by simpa using hw)) h2
      | ptr q' t =>
        exfalso
        unfold Shallow at hu
        simp only [CType.isPointer, CType.pointerArity] at hk hu
        rcases hk with ⟨_, hk⟩ | ⟨⟨hk, _⟩, _⟩
        · cases hk
        · omega
      | arr n e =>
        exfalso
        have hcp : (describe (v.type .none)).isClassPtr = true := by rw [isClassPtr_iff st]; simpa [CType.isPointer] using hk
        have hncl : (describe (v.type .none)).isClass = false := by rw [isClass_of st]; simp [CType.isPointer]
        unfold object at h
        rw [if_neg (held_of st), hncl, hcp] at h
        simp only [Bool.false_eq_true, if_false, if_true] at h
        generalize hg : to E v isConst (.ptr ⟨false, false⟩ (.base b ⟨method, false⟩)) = R at h
        have gv := (C43_to_partial r st f.null isConst _ hu (sh_ptr _ _ _) (by intro n e h; cases h) (by intro b q h; cases h) R).1 hg
        cases gv with
        | same y R hfit hs hp hcp =>
          obtain ⟨h, e, hu⟩ := st.held
          rw [vtype e, ← fullDecay_iff, type_fullDecay, ← hu, fullDecay_iff] at hs
          rcases hs with ⟨e, e', h1, h2, h3⟩ | ⟨b', q1, q2, _, e1, e2⟩
          · cases h1; cases h2; cases h3
          · cases e1
        | up y R hfit hns hu' => obtain ⟨_, _, _, _, _, st', _⟩ := hu'; obtain ⟨e', _⟩ := st.unique st'; cases e'
        | upPtr y hfit hns hu' => obtain ⟨_, _, _, _, _, _, _, st', _⟩ := hu'; obtain ⟨e', _⟩ := st.unique st'; cases e'
        | conv y cv R hnd hp hcv hR => cases hR <;> simp [Ret.bind, pointee] at h
        | none => cases h
    | arr n e =>
      exfalso
      have hncp : (describe (v.type .none)).isClassPtr = false := by rw [isClassPtr_of st]; simp [CType.isPointer]
      have hcl : (describe (v.type .none)).isClass = true := by rw [isClass_iff st]; simpa [CType.isPointer] using hk
      unfold object at h
      rw [if_neg (held_of st), hcl] at h
      simp only [if_true] at h
      split at h
      · cases h
      · rcases reference_cases r f (if isConst then .refConst else .ref) (sh_base b ⟨method, false⟩) with ⟨y, hy, ⟨_, hR⟩, _⟩ | ⟨hy, _⟩
        · have hR : Refers E v (.base b ⟨method, false⟩) y := by
            cases isConst
            · exact hR
            · exact refers_addConst.1 hR
          have nd : ¬SameDecay (.arr n e) (.base b ⟨method, false⟩) := by
            rintro (⟨e, e', h1, h2, h3⟩ | ⟨b', q1, q2, _, e1, e2⟩)
            · cases h2 with | func _ _ hf => rw [hb] at hf; cases hf
            · cases e1
          cases hR with
          | same u y st' hd _ => obtain ⟨rfl, _⟩ := st.unique st'; exact nd hd
          | decayed n e y st' hd _ => obtain ⟨e', _⟩ := st.unique st'; cases e'; exact nd hd
          | sub b' c' q' r' x' y st' => obtain ⟨e', _⟩ := st.unique st'; cases e'
          | subPtr b' c' q' q'' r' r'' x' y st' => obtain ⟨e', _⟩ := st.unique st'; cases e'
        · rw [hy] at h; cases h
  · intro hp hr
    cases hr with
    | object c q x hc st hw h =>
      exact ((object_class r f st hc b hb method isConst).1 a).2 ⟨fun hm => hw (by simp [hm]), h.imp_right fun h => ⟨h.1, h.2, h0⟩⟩
    | pointer c q q' x hc st hw h =>
      exact (object_ptr r f st hc b hb method isConst a h0).2 hp ⟨fun hm => hw (by simp [hm]), h⟩

/-- C48: a member function of class `b` runs on the object at `a` only if the instance gives access to it, as non-const for a
    non-const function; and with `n` arguments. -/
theorem C48_invoke_partial {rank : TypeId → Nat} {E : Env} (r : Reachable rank E.w) (N : Nest) {v : Vnt} (fv : Fine E v) (f : Fn) (b : Base)
    (hb : b.kind = .cls) (isConst : Bool) (args : List Arg) (a : Addr) (h0 : a ≠ 0) (bs : List Bound)
    (h : memberInvoke E N f b isConst v args = .ok (.called (some (.at a)) bs)) :
    Runs E b isConst (!f.const) v a ∧ pack f.params.length args = .ok (pad args) ∧ getAll E N f.params (pad args) = .ok bs := by
  unfold memberInvoke at h
  have hpk : pack f.params.length args = .ok (pad args) := by
    unfold pack at h ⊢
    by_cases hp : countDown (pad args) f.params.length = 0
    · simp [hp]
    · simp [hp, Ret.bind] at h
  rw [hpk] at h
  simp only [Ret.bind] at h
  generalize ho : object E b f.const isConst v = O at h
  cases O with
  | ok o =>
    cases o with
    | none => cases h
    | some o =>
      simp only at h
      cases hg : getAll E N f.params (pad args) with
      | ok bs' =>
        rw [hg] at h
        cases h
        exact ⟨(C48_object_partial r fv b hb f.const isConst a h0).1 ho, hpk, rfl⟩
      | throw => rw [hg] at h; cases h
      | terminate => rw [hg] at h; cases h
      | ub => rw [hg] at h; cases h
      | diverge => rw [hg] at h; cases h
  | throw => cases h
  | terminate => cases h
  | ub => cases h
  | diverge => cases h

/-- C48: a const function, and a non-const one on an object reached as non-const, does run on it -/
theorem C48_runs {rank : TypeId → Nat} {E : Env} (r : Reachable rank E.w) (hpc : PtrCopies E) (N : Nest) {v : Vnt} (fv : Fine E v) (f : Fn) (b : Base)
    (hb : b.kind = .cls) (isConst : Bool) (args : List Arg) (a : Addr) (h0 : a ≠ 0) (bs : List Bound)
    (hr : Runs E b isConst (!f.const) v a) (hp : pack f.params.length args = .ok (pad args)) (hg : getAll E N f.params (pad args) = .ok bs) :
    memberInvoke E N f b isConst v args = .ok (.called (some (.at a)) bs) := by
  unfold memberInvoke
  rw [hp]
  simp only [Ret.bind]
  rw [(C48_object_partial r fv b hb f.const isConst a h0).2 hpc hr]
  simp [hg]

/-- C48: a non-const function on a const object, or on an object in a const variant, is refused -/
theorem C48_refused {rank : TypeId → Nat} {E : Env} (r : Reachable rank E.w) (N : Nest) {v : Vnt} (fv : Fine E v) (f : Fn) (hf : f.const = false)
    (b : Base) (hb : b.kind = .cls) (isConst : Bool) (args : List Arg) {c : Base} {q : CV} {x : Addr} (hc : c.kind = .cls)
    (st : Stands v (.base c q) x) (hq : q.c = true ∨ isConst = true) (hp : pack f.params.length args = .ok (pad args)) :
    memberInvoke E N f b isConst v args = .throw .badVariantCast := by
  obtain ⟨h1, h2⟩ := object_class r fv st hc b hb f.const isConst
  have : object E b f.const isConst v = .throw .badVariantCast := by
    refine h2 fun a ha => ?_
    have := ((h1 a).1 ha).1 hf
    rcases hq with hq | hq
    · rw [hq] at this; cases this.1
    · rw [hq] at this; cases this.2
  unfold memberInvoke
  rw [hp, this]; rfl

open ExV ExI in
example : Fine env vD ∧ Fine env vPD ∧ PtrCopies env ∧ Runs env R true false vD 5008 ∧
    memberInvoke env nest f9 R true vD [anInt] = .ok (.called (some (.at 5008)) [.value (.copyOf 710)]) ∧
    memberInvoke env nest f6 B true vD [] = .throw .badVariantCast ∧
    memberInvoke env nest f6 B false vCD [] = .throw .badVariantCast ∧
    memberInvoke env nest f6 B true vPD [] = .ok (.called (some (.at 5000)) []) := by
  refine ⟨fineD, finePD, fun _ _ _ => rfl, ?_, by decide +kernel⟩
  exact (C48_object_partial Ex.diamond_reachable fineD R rfl true true 5008 (by decide)).1 (by decide +kernel)

/-- C48 is false with converters: with a conversion from `D *` to `B *` registered by the user, a pointer to const loses its const, because converters are looked up without const: the non-const `f` runs on the
    object made from a `D const *`. -/
theorem C48_converter_false :
    let pd : CType := .ptr ⟨false, false⟩ (ExV.cls ExV.D)
    let pb : CType := .ptr ⟨false, false⟩ (ExV.cls ExV.B)
    let E := { ExV.env with conv := fun s t => if s = pd ∧ t = pb then some ⟨7, .functor, fun _ => .returns true false⟩ else none }
    let v : Vnt := ⟨some ⟨false, .ptr ⟨false, false⟩ (ExV.ccls ExV.D)⟩, 1000, 5000⟩
    memberInvoke ExV.env ExI.nest ExI.f6 ExV.B false v [] = .throw .badVariantConvert ∧
    memberInvoke E ExI.nest ExI.f6 ExV.B false v [] = .ok (.called (some (.made 7 1000)) []) := by decide +kernel

/-! ### C49 -/

/-- C49: a const property is never assigned -/
theorem C49_read_only (E : Env) (N : Nest) (p : Property) (i : Option (Bool × Vnt)) (a : Arg) (h : p.readOnly = true) :
    p.set E N i a = .throw .invokeError := by
  cases p with
  | static t x => cases i <;> simp_all [Property.set, Property.readOnly]
  | field b t off => cases i <;> simp_all [Property.set, Property.readOnly]
  | accessor b g s => cases h

/-- C49: properties of objects need an instance, static ones must not have one -/
theorem C49_misuse (E : Env) (N : Nest) (p : Property) (a : Arg) :
    (p.isStatic = true → ∀ v c, p.get E N (some v) = .throw .invokeError ∧ p.set E N (some (c, v)) a = .throw .invokeError) ∧
    (p.isStatic = false → p.get E N none = .throw .invokeError ∧ p.set E N none a = .throw .invokeError) := by
  cases p <;> simp [Property.isStatic, Property.get, Property.set]

/-- C49: through a const variant holding the object (or a reference to it) nothing is assigned -/
theorem C49_const_variant (E : Env) (N : Nest) (b : Base) (t : CType) (off : Nat) (v : Vnt) (a : Arg) {c : Base} {q : CV} {x : Addr}
    (hc : c.kind = .cls) (st : Stands v (.base c q) x) (w : Wrote) : (Property.field b t off).set E N (some (true, v)) a ≠ .ok w ∧
      ((Property.field b t off).readOnly = false → (Property.field b t off).set E N (some (true, v)) a = .throw .badVariantCast) := by
  have : (describe (v.type .none)).isClass = true := by rw [isClass_of st]; simp [CType.baseType, CType.isPointer, hc]
  by_cases h : t.isConst = true
  · simp [Property.set, Property.readOnly, h]
  · simp [Property.set, Property.readOnly, h, held_of st, this]

/-- C49: a reference to a const object is not assigned through either -/
theorem C49_const_object {rank : TypeId → Nat} {E : Env} (r : Reachable rank E.w) (N : Nest) (b : Base) (hb : b.kind = .cls) (t : CType) (off : Nat)
    {v : Vnt} (fv : Fine E v) (ic : Bool) (a : Arg) {c : Base} {q : CV} {x : Addr} (hc : c.kind = .cls) (st : Stands v (.base c q) x)
    (hq : q.c = true) (w : Wrote) : (Property.field b t off).set E N (some (ic, v)) a ≠ .ok w := by
  have hcl : (describe (v.type .none)).isClass = true := by rw [isClass_of st]; simp [CType.baseType, CType.isPointer, hc]
  obtain ⟨h1, h2⟩ := object_class r fv st hc b hb false ic
  have : object E b false ic v = .throw .badVariantCast := by
    refine h2 fun a ha => ?_
    have := (((h1 a).1 ha).1 rfl).1
    rw [hq] at this; cases this
  intro h
  unfold Property.set at h
  simp only [held_of st, if_false, hcl, if_true, this] at h
  split at h
  · cases h
  · split at h
    · cases h
    · cases hg : newValue E N t a <;> rw [hg] at h <;> cases h

/-- C49: the only member assigned is the one at the offset of the property, in the object the instance gives access to as non-const -/
theorem C49_set_where_partial {rank : TypeId → Nat} {E : Env} (r : Reachable rank E.w) (N : Nest) (b : Base) (hb : b.kind = .cls) (t : CType) (off : Nat)
    {v : Vnt} (fv : Fine E v) (ic : Bool) (arg : Arg) (s : Spot) (m : Made) (a : Addr) (h0 : a ≠ 0) (hs : s.o = .at a)
    (h : (Property.field b t off).set E N (some (ic, v)) arg = .ok (.assigned s m)) :
    s.off = off ∧ Runs E b ic true v a ∧ newValue E N t arg = .ok m ∧ ¬IsConst t := by
  have key : ∀ (R : Ret Wrote), R = (newValue E N t arg).bind (fun m => (object E b false ic v).bind fun o =>
        match o with
        | none => .ok .nothing
        | some o => .ok (.assigned ⟨o, off⟩ m)) → R = .ok (.assigned s m) →
      s.off = off ∧ object E b false ic v = .ok (some (.at a)) ∧ newValue E N t arg = .ok m := by
    intro R e h
    rw [e] at h
    cases hv : newValue E N t arg with
    | ok m' =>
      rw [hv] at h
      simp only [Ret.bind] at h
      cases ho : object E b false ic v with
      | ok o =>
        rw [ho] at h
        cases o with
        | none => cases h
        | some o => cases h; exact ⟨rfl, by rw [← hs], rfl⟩
      | throw => rw [ho] at h; cases h
      | terminate => rw [ho] at h; cases h
      | ub => rw [ho] at h; cases h
      | diverge => rw [ho] at h; cases h
    | throw => rw [hv] at h; cases h
    | terminate => rw [hv] at h; cases h
    | ub => rw [hv] at h; cases h
    | diverge => rw [hv] at h; cases h
  obtain ⟨u, x, st, hu⟩ := fv.stands
  have : ¬t.isConst = true ∧ s.off = off ∧ object E b false ic v = .ok (some (.at a)) ∧ newValue E N t arg = .ok m := by
    unfold Property.set at h
    simp only [held_of st, if_false] at h
    by_cases ht : t.isConst = true
    · rw [if_pos ht] at h; cases h
    rw [if_neg ht] at h
    refine ⟨ht, ?_⟩
    split at h
    · split at h
      · cases h
      · exact key _ rfl h
    · split at h
      · exact key _ rfl h
      · cases h
  obtain ⟨h1, h2, h3, h4⟩ := this
  exact ⟨h2, (C48_object_partial r fv b hb false ic a h0).1 h3, h4, fun h => h1 ((isConst_iff _).2 h)⟩

/-- C49: after assigning a member, `get` through the same instance refers to the very member assigned. -/
theorem C49_set_get_partial {rank : TypeId → Nat} {E E' : Env} (r : Reachable rank E.w) (N N' : Nest) (b : Base) (hb : b.kind = .cls) (t : CType)
    (off : Nat) {v : Vnt} (fv : Fine E v) (ic : Bool) (arg : Arg) (s : Spot) (m : Made) (a : Addr) (h0 : a ≠ 0) (hs : s.o = .at a)
    (h : (Property.field b t off).set E N (some (ic, v)) arg = .ok (.assigned s m)) (after : After E E' v) (hpc : PtrCopies E') :
    (Property.field b t off).get E' N' (some v) = .ok (.ref (addConst t) s) := by
  obtain ⟨h1, h2, _, _⟩ := C49_set_where_partial r N b hb t off fv ic arg s m a h0 hs h
  have hld : ∀ {u x}, Stands v u x → (∀ n e, u ≠ .arr n e) → E'.load x = E.load x := by
    intro u x st hna
    cases st with
    | inPlace => exact after.self
    | heap => exact after.ptr
    | array n e => exact absurd rfl (hna _ _)
    | ref => exact after.ptr
  have hdes : ∀ b x, Designates E' v b x ↔ Designates E v b x := by
    intro b x
    constructor
    · intro d; cases d with
      | object q _ hb st => exact .object _ q _ hb st
      | pointer q q' y hb st => rw [hld st (by intro n e h; cases h)]; exact .pointer _ q q' y hb st
    · intro d; cases d with
      | object q _ hb st => exact .object _ q _ hb st
      | pointer q q' y hb st => rw [← hld st (by intro n e h; cases h)]; exact .pointer _ q q' y hb st
  have hsub : ∀ c y, Subobject E v c y → Subobject E' v c y := by
    rintro c y ⟨d, e, i, fs, ⟨b', x', t', k1, k2, k3, k4⟩, g2, g3⟩
    refine ⟨d, e, i, fs, ⟨b', x', t', (hdes _ _).2 k1, ?_, ?_, ?_⟩, ?_, g3⟩
    · unfold Complete at k2 ⊢; rw [after.info, after.dyn, after.tid]; exact k2
    · rw [after.w]; exact k3
    · rw [after.w, after.tid]; exact k4
    · rw [after.w]; exact g2
  have fv' : Fine E' v := by
    refine ⟨⟨fv.sound.self, by rw [after.self]; exact fv.sound.word, fv.sound.object, fv.sound.nofunc⟩, fv.stands, ?_⟩
    rintro ⟨b', k1, k2⟩
    exact fv.null ⟨b', (hdes _ _).1 k1, by rw [← after.info]; exact k2⟩
  have hr : Runs E' b true (!true) v a := by
    cases h2 with
    | object c q x hc st hw h => exact .object c q x hc st nofun (h.imp_right fun h => ⟨h.1, hsub _ _ h.2⟩)
    | pointer c q q' x hc st hw h =>
      refine .pointer c q q' x hc st nofun (h.imp (fun h => ⟨h.1, ?_⟩) fun h => ⟨h.1, hsub _ _ h.2⟩)
      rw [hld st (by intro n e h; cases h)]; exact h.2
  have := (C48_object_partial (by rw [after.w]; exact r) fv' b hb true true a h0).2 hpc hr
  unfold Property.get
  simp only [this, Ret.bind]
  obtain ⟨o, off'⟩ := s
  simp only at hs h1
  rw [hs, h1]

/-- C49: the same for static properties -/
theorem C49_static_set_get (E E' : Env) (N N' : Nest) (t : CType) (x : Addr) (arg : Arg) (s : Spot) (m : Made)
    (h : (Property.static t x).set E N none arg = .ok (.assigned s m)) :
    s = ⟨.at x, 0⟩ ∧ newValue E N t arg = .ok m ∧ (Property.static t x).get E' N' none = .ok (.ref (addConst t) s) := by
  unfold Property.set at h
  simp only at h
  split at h
  · cases h
  · cases hv : newValue E N t arg with
    | ok m' => rw [hv] at h; cases h; exact ⟨rfl, rfl, rfl⟩
    | throw => rw [hv] at h; cases h
    | terminate => rw [hv] at h; cases h
    | ub => rw [hv] at h; cases h
    | diverge => rw [hv] at h; cases h

/-- C49: for members and static objects `get` gives a reference to const -/
theorem C49_get_const (E : Env) (N : Nest) (p : Property) (i : Option Vnt) (t : CType) (s : Spot) (h : p.get E N i = .ok (.ref t s)) : IsConst t := by
  have : ∀ t, IsConst (addConst t) := fun t => (isConst_iff _).1 (addConst_isConst t)
  unfold Property.get at h
  cases p with
  | static t' x => cases i <;> cases h; exact this _
  | field b t' off =>
    cases i with
    | none => cases h
    | some v =>
      simp only at h
      cases ho : object E b true true v with
      | ok o => rw [ho] at h; cases o <;> cases h; exact this _
      | throw => rw [ho] at h; cases h
      | terminate => rw [ho] at h; cases h
      | ub => rw [ho] at h; cases h
      | diverge => rw [ho] at h; cases h
  | accessor b g st =>
    cases i with
    | none => cases h
    | some v =>
      simp only at h
      cases ho : memberInvoke E N g b true v [] <;> rw [ho] at h <;> cases h

/-- C49 is false for getters: what a getter `int &D::x() const` returns is kept as a writable reference. -/
theorem C49_getter_false :
    let g : Fn := ⟨some ExV.D, true, [], some ⟨.lref, Ex.int⟩⟩
    (Property.accessor ExV.D g g).get ExV.env ExI.nest (some ExV.vD) = .ok (.result (.called (some (.at 5000)) [])) ∧
    g.returns ExI.nest = .holds ⟨true, Ex.int⟩ ∧
    ∀ E v, Sound E v → v.held = some ⟨true, Ex.int⟩ → reference E v .ref Ex.int = .ok v.ptr :=
  ⟨by decide +kernel, rfl, fun _ _ sd hv => (C42_own_type sd (.ref _ hv) (by simp [Ex.int])).1⟩

/-- C49 is false for objects passed as they are: `get(object)` copies the object into a variant that lives as long as the call
    (`get_impl` takes a `variant const &`), and the reference returned refers into that variant (in its buffer, or to the object on the
    heap it owns), not into the object. Writing through `set(object, value)` is refused instead. -/
theorem C49_temporary_false {rank : TypeId → Nat} {E : Env} (r : Reachable rank E.w) (N : Nest) {v : Vnt} (fv : Fine E v) {b : Base} {q : CV}
    (hb : b.kind = .cls) (h : v.held = some ⟨false, .base b q⟩) (t : CType) (off : Nat) :
    (Property.field b t off).get E N (some v) = .ok (.ref (addConst t) ⟨.at (if b.size ≤ 16 then v.self else v.ptr), off⟩) ∧
    ∀ a m, (Property.field b t off).set E N (some (true, v)) a ≠ .ok m := by
  have hn : ∀ n e, CType.base b q ≠ .arr n e := by simp
  have st : Stands v (.base b ⟨false, false⟩) (if b.size ≤ 16 then v.self else v.ptr) := by
    by_cases hs : b.size ≤ 16
    · rw [if_pos hs]; exact .inPlace (.base b q) h hn hs
    · rw [if_neg hs]; exact .heap (.base b q) h hn (Nat.lt_of_not_le hs)
  have ho := ((object_class r fv st hb b hb true true).1 _).2 ⟨by simp, .inl ⟨rfl, rfl⟩⟩
  have hc : (describe (v.type .none)).isClass = true := by rw [isClass_of st]; simp [CType.baseType, CType.isPointer, hb]
  refine ⟨by simp [Property.get, ho, Ret.bind], fun a m => ?_⟩
  simp only [Property.set, held_of st, hc, if_true, if_false]
  split <;> simp

open ExV ExI in
/-- a temporary variant with a `D`, which is too big for its buffer -/
example : let v : Vnt := ⟨some ⟨false, cls D⟩, 1000, 5000⟩
    16 < D.size ∧ (Property.field D Ex.int 4).get env nest (some v) = .ok (.ref (addConst Ex.int) ⟨.at 5000, 4⟩) := by decide +kernel

/-- C49: properties with a getter and a setter are never read-only, and a getter that is not const cannot be called through `get` for an
    object held by the variant -/
theorem C49_getter_not_const {rank : TypeId → Nat} {E : Env} (r : Reachable rank E.w) (N : Nest) {v : Vnt} (fv : Fine E v) (g s : Fn)
    (hg : g.const = false) (hn : g.params = []) (b : Base) (hb : b.kind = .cls) {c : Base} {q : CV} {x : Addr} (hc : c.kind = .cls)
    (st : Stands v (.base c q) x) : (Property.accessor b g s).readOnly = false ∧
    (Property.accessor b g s).get E N (some v) = .throw .badVariantCast := by
  refine ⟨rfl, ?_⟩
  unfold Property.get
  simp only
  rw [C48_refused r N fv g hg b hb true [] hc st (.inr rfl) (by rw [hn]; rfl)]
  rfl

open ExV ExI in
example : (Property.field B Ex.int 4).set env nest (some (false, vPD)) anInt = .ok (.assigned ⟨.at 5000, 4⟩ (.copyOf 710)) ∧
    After env env vPD ∧ PtrCopies env ∧
    constField.set env nest (some (false, vD)) anInt = .throw .invokeError ∧
    field.set env nest (some (true, vD)) anInt = .throw .badVariantCast ∧
    field.set env nest (some (false, vCD)) anInt = .throw .badVariantCast ∧
    (Property.static Ex.int 77).set env nest none anInt = .ok (.assigned ⟨.at 77, 0⟩ (.copyOf 710)) :=
  ⟨by decide +kernel, ⟨rfl, rfl, rfl, rfl, rfl, rfl⟩, fun _ _ _ => rfl, by decide +kernel⟩

/-! ### C50 -/

/-- C50 is false: calling a method on, reading from and writing to an `int` or nothing at all succeeds and does nothing. -/
theorem C50_false : let E := ExV.env; let N := ExI.nest
    (∀ v, v = ExV.vI ∨ v = ⟨none, 1000, 0⟩ →
      methodInvoke E N ExI.f6 (ExI.inst v) [] = .ok .nothing ∧ ExI.field.get E N (some v) = .ok .empty ∧
      ExI.field.set E N (some (false, v)) ExI.anInt = .ok .nothing) := by
  rintro E N v (rfl | rfl) <;> decide +kernel

/-- that is so for every instance that is neither an object nor a pointer to one -/
theorem C50_silent {E : Env} (N : Nest) {v : Vnt} (hv : v.held = none ∨ (∃ u x, Stands v u x ∧ Shallow u) ∧ NoObject v) (f : Fn) (b : Base) (ic : Bool)
    (args : List Arg) (hp : ∃ as, pack f.params.length args = .ok as) (t : CType) (ht : ¬IsConst t) (off : Nat) (a : Arg) :
    memberInvoke E N f b ic v args = .ok .nothing ∧
    (Property.field b t off).get E N (some v) = .ok .empty ∧
    (Property.field b t off).set E N (some (ic, v)) a = .ok .nothing := by
  have ho : ∀ m c, object E b m c v = .ok none := by
    intro m c
    rcases hv with hv | ⟨⟨u, x, st, hu⟩, hn⟩
    · simp [object, hv]
    · exact object_none st hu hn b m c
  have ht' : t.isConst = false := by
    cases h : t.isConst with
    | false => rfl
    | true => exact absurd ((isConst_iff _).1 h) ht
  obtain ⟨as, hp⟩ := hp
  refine ⟨by simp [memberInvoke, hp, ho, Ret.bind], by simp [Property.get, ho, Ret.bind], ?_⟩
  unfold Property.set
  have h1 := ho true false
  unfold object at h1
  simp only [ht', Bool.false_eq_true, if_false]
  by_cases hh : v.held = none
  · simp [hh]
  · rcases hv with hv | ⟨⟨u, x, st, hu⟩, hn⟩
    · exact absurd hv hh
    · have hx : (describe (v.type .none)).isClass = false ∧ (describe (v.type .none)).isClassPtr = false := by
        rw [if_neg hh] at h1
        cases hc : (describe (v.type .none)).isClass with
        | true =>
          exfalso
          rw [hc] at h1
          simp only [Bool.false_and, Bool.false_eq_true, if_false, if_true] at h1
          cases hr : reference E v .ref (.base b ⟨true, false⟩) <;> rw [hr] at h1 <;> cases h1
        | false =>
          refine ⟨rfl, ?_⟩
          cases hcp : (describe (v.type .none)).isClassPtr with
          | false => rfl
          | true =>
            exfalso
            rw [hc, hcp] at h1
            simp only [Bool.false_eq_true, if_false, if_true] at h1
            cases hr : to E v false (.ptr ⟨false, false⟩ (.base b ⟨true, false⟩)) with
            | ok m =>
              rw [hr] at h1
              simp only [Ret.bind] at h1
              split at h1 <;> cases h1
            | throw => rw [hr] at h1; cases h1
            | terminate => rw [hr] at h1; cases h1
            | ub => rw [hr] at h1; cases h1
            | diverge => rw [hr] at h1; cases h1
      simp [hh, hx.1, hx.2]

/-- C50 holds for access by name -/
theorem C50_named_partial {rank : TypeId → Nat} {E : Env} (r : Reachable rank E.w) (N : Nest) (fn : Ptr → Fn) (pr : Ptr → Property) (i : Inst)
    (hv : i.v.held = none ∨ NoObject i.v) (name : Str) (args : List Arg) (a : Arg) :
    invokeNamed E N fn i name args = .throw .runtimeError ∧ getNamed E N pr i.v name = .throw .runtimeError ∧
    setNamed E N pr i.v name a = .throw .runtimeError := by
  refine C45_no_class r N fn pr i name args a fun b x hd => ?_
  rcases hv with hv | hn
  · cases hd with
    | object q _ hb st => exact held_of st hv
    | pointer q q' y hb st => exact held_of st hv
  · cases hd with
    | object q _ hb st =>
      rcases hn _ _ st with ⟨b', ho, hk⟩ | ⟨d, hd⟩
      · cases ho; exact hk hb
      · cases hd
    | pointer q q' y hb st =>
      rcases hn _ _ st with ⟨b', ho, hk⟩ | ⟨d, hd⟩
      · cases ho with | ptr _ ho => cases ho; exact hk hb
      · cases hd with | ptr _ hd => cases hd

open ExV ExI in
example : Stands vI Ex.int 1000 ∧ NoObject vI ∧ pack f6.params.length [] = .ok (pad []) := by
  have st : Stands vI Ex.int 1000 := .inPlace Ex.int rfl (by simp [Ex.int]) (by decide)
  refine ⟨st, fun u x s => ?_, rfl⟩
  rw [(s.unique st).1]
  exact .inl ⟨Ex.intB, .base _ _, by decide⟩

end Rtti.Props
