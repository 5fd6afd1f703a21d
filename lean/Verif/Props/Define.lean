import Verif.Examples.Worlds
/-
C17, C19 (one thread), C20, C30, C31, C59.
-/
namespace Rtti.Props
open Rtti Spec World

/-! ### C17 -/

/-- C17 for namespaces. -/
theorem C17_namespace {rank} {w : World} (h : Reachable rank w) {o : Ptr} (ho : w.isContainer o = true)
    {n : Str} (hn : n ≠ []) :
    DefinesOnce w (w.createNamespace o n).1 (w.createNamespace o n).2
      (fun w => w.getItem o .nmspace n) o .nmspace n := by
  have i := Inv.reachable h
  exact i.getOrCreate_once o ho _ _ _ _ _ (stored_id w o (by decide) n 0)
    ⟨_, getItem_val ho _ _⟩ (fun h => i.getItem_none ho hn h)
    (fun h => i.getItem_created ho 0 hn (i.getItem_none ho hn h) (by simp))

/-- C17 for enums. -/
theorem C17_enum {rank} {w : World} (h : Reachable rank w) {o : Ptr} (ho : w.isContainer o = true)
    {n : Str} (hn : n ≠ []) :
    DefinesOnce w (w.createEnum o n).1 (w.createEnum o n).2
      (fun w => w.getItem o .enum n) o .enum n := by
  have i := Inv.reachable h
  exact i.getOrCreate_once o ho _ _ _ _ _ (stored_id w o (by decide) n 0)
    ⟨_, getItem_val ho _ _⟩ (fun h => i.getItem_none ho hn h)
    (fun h => i.getItem_created ho 0 hn (i.getItem_none ho hn h) (by simp))

/-- C17 for classes: unless it throws (C19). The object returned by the first disjunct may describe
    another type, see C20. -/
theorem C17_class {rank} {w : World} (h : Reachable rank w) {o : Ptr} (ho : w.isContainer o = true)
    {n : Str} (hn : n ≠ []) (t : TypeId) :
    DefinesOnce w (w.createClass o n t).1 (w.createClass o n t).2 (fun w => w.getItem o .cls n) o .cls n ∨
    (w.getItem o .cls n = .val none ∧
      ((w.valid t = false ∧ w.createClass o n t = (w, .throw .invalidTypeId)) ∨
       (w.valid t = true ∧ (w.find t).isSome ∧ w.createClass o n t = (w, .throw .duplicateClass)))) := by
  have i := Inv.reachable h
  unfold createClass
  rw [getItem_val ho]
  cases hg : ((w.cont o .cls).get n).map (·.ptr) with
  | some p =>
    left; left
    exact ⟨p, (getItem_val ho _ _).trans (by rw [hg]), rfl, rfl⟩
  | none =>
    have hg' : w.getItem o .cls n = .val none := by rw [getItem_val ho, hg]
    simp only
    cases hv : w.valid t with
    | false => right; exact ⟨trivial, .inl ⟨rfl, by simp⟩⟩
    | true =>
      cases hm : w.metaClass t with
      | some q => right; exact ⟨trivial, .inr ⟨rfl, by simp [find, hv, hm], by simp⟩⟩
      | none =>
        left
        simp only [Bool.not_true, Bool.false_eq_true, if_false, Option.isSome_none]
        exact i.getOrCreate_once o ho _ _ _ _ _ (stored_cls w o n t)
          ⟨_, getItem_val ho _ _⟩ (fun h => i.getItem_none ho hn h)
          (fun h => i.getItem_created ho t hn (i.getItem_none ho hn h) (fun _ => ⟨hv, hm⟩))

/-- C17 for methods (`sig` the full signature, never empty). The look-up paired with it includes base
    classes, see C30. -/
theorem C17_method {rank} {w : World} (h : Reachable rank w) {o : Ptr} (ho : w.isContainer o = true)
    {sig : Str} (hn : sig ≠ []) :
    DefinesOnce w (w.createMethod o sig true).1 (w.createMethod o sig true).2
      (fun w => w.getMethod o sig) o .method sig := by
  have i := Inv.reachable h
  simp only [createMethod, Bool.not_true, Bool.false_eq_true, if_false]
  exact i.getOrCreate_once o ho _ _ _ _ _ (stored_id w o (by decide) sig 0)
    (getMethod_val i ho) (fun h => names_ne_of_findMethod_none (getMethod_none_own i ho hn h))
    (fun h => i.getMethod_created ho hn h)

/-- C17 for properties. -/
theorem C17_property {rank} {w : World} (h : Reachable rank w) {o : Ptr} (ho : w.isContainer o = true)
    {n : Str} (hn : n ≠ []) :
    DefinesOnce w (w.createProperty o n true).1 (w.createProperty o n true).2
      (fun w => w.getProperty o n) o .property n := by
  have i := Inv.reachable h
  simp only [createProperty, hn, Bool.not_true, Bool.false_eq_true, or_self, if_false]
  exact i.getOrCreate_once o ho _ _ _ _ _ (stored_id w o (by decide) n 0)
    (getProperty_val i ho hn) (fun h => getProperty_none_own i ho hn h)
    (fun h => i.getProperty_created ho hn h)

/-- C17 for constructors. -/
theorem C17_constructor {rank} {w : World} (h : Reachable rank w) {o : Ptr} (ho : w.isContainer o = true)
    (sig : Str) :
    DefinesOnce w (w.createConstructor o sig true).1 (w.createConstructor o sig true).2
      (fun w => w.getConstructor o sig) o .constructor sig := by
  have i := Inv.reachable h
  simp only [createConstructor, Bool.not_true, Bool.false_eq_true, if_false]
  exact i.getOrCreate_once o ho _ _ _ _ _ (stored_id w o (by decide) sig 0)
    (getConstructor_val ho) (fun h => names_ne_of_findMethod_none (getConstructor_none ho h))
    (fun h => i.getConstructor_created ho h)

/-- Why the name must be non-empty: defining an unnamed namespace twice gives a null object. -/
theorem C17_empty_name_fails : ∃ (w : World), Reachable id w ∧ w.isContainer 1 = true ∧
    (w.createNamespace 1 []).2 = .val none :=
  ⟨World.init.run [.createNamespace 1 []], reachable_run .init _ (by decide), by decide, by decide⟩

/- both cases of `DefinesOnce` occur -/
example : Ex.diamond.isContainer 5 = true ∧ Ex.diamond.getMethod 5 ['h', '(', ')'] = .val none ∧
    (Ex.diamond.createMethod 5 ['h', '(', ')'] true).2 = .val (some 10) := by decide
example : Ex.diamond.getItem 1 .cls ['D'] = .val (some 5) ∧
    (Ex.diamond.createClass 1 ['D'] 4).2 = .val (some 5) := by decide
example : Ex.diamond.createClass 1 ['E'] 4 = (Ex.diamond, .throw .duplicateClass) := rfl
example : Ex.diamond.createClass 1 ['E'] 9 = (Ex.diamond, .throw .invalidTypeId) := rfl

/-! ### C19 -/

/-- C19, one thread: look-up by type and the classes are in one-to-one correspondence. -/
theorem C19_class_per_type {rank} {w : World} (h : Reachable rank w) (t : TypeId) (p : Ptr) :
    w.find t = some p ↔ (w.kind p = some .cls ∧ (w.cls p).typeId = t) := by
  have i := Inv.reachable h
  constructor
  · exact i.find_cls
  · rintro ⟨hk, rfl⟩
    have hm := i.cm p hk
    simp [find, hm, (i.mc _ _ hm).1]

/-- C19: two classes of one type are the same class. -/
theorem C19_unique {rank} {w : World} (h : Reachable rank w) {p q : Ptr} (hp : w.kind p = some .cls)
    (hq : w.kind q = some .cls) (e : (w.cls p).typeId = (w.cls q).typeId) : p = q := by
  have a := (C19_class_per_type h _ _).2 ⟨hp, rfl⟩
  have b := (C19_class_per_type h _ _).2 ⟨hq, rfl⟩
  rw [e, b] at a
  simpa using a.symm

/-- C19: a second definition of the type under a new name is refused and changes nothing. -/
theorem C19_second_definition_refused {rank} {w : World} (h : Reachable rank w) {o p : Ptr} {n : Str}
    {t : TypeId} (ho : w.isContainer o = true) (hnew : ∀ x ∈ (w.cont o .cls).items, x.name ≠ n)
    (hp : w.find t = some p) : w.createClass o n t = (w, .throw .duplicateClass) := by
  have i := Inv.reachable h
  have hg : (w.cont o .cls).get n = none := (i.wf o .cls).get_none n |>.2 (.inr hnew)
  unfold find at hp
  split at hp
  · rename_i hv
    simp [createClass, getItem_val ho, hg, hv, hp]
  · cases hp

/-- C19: an invalid type id is refused and changes nothing. -/
theorem C19_invalid_type_refused {rank} {w : World} (h : Reachable rank w) {o : Ptr} {n : Str}
    {t : TypeId} (ho : w.isContainer o = true) (hnew : ∀ x ∈ (w.cont o .cls).items, x.name ≠ n)
    (hv : w.valid t = false) : w.createClass o n t = (w, .throw .invalidTypeId) := by
  have i := Inv.reachable h
  have hg : (w.cont o .cls).get n = none := (i.wf o .cls).get_none n |>.2 (.inr hnew)
  simp [createClass, getItem_val ho, hg, hv]

example : Ex.diamond.find 4 = some 5 ∧ Ex.diamond.kind 5 = some .cls := by decide

/-! ### C20 -/

/-- C20 is false: `_class<C>(name)` with a name already used for another type returns that other
    type's class, without any error. -/
theorem C20_false : ∃ (w : World) (o p : Ptr) (n : Str) (t : TypeId),
    Reachable id w ∧ w.isContainer o = true ∧ n ≠ [] ∧ w.valid t = true ∧
    (w.createClass o n t).2 = .val (some p) ∧ ((w.createClass o n t).1.cls p).typeId ≠ t :=
  ⟨Ex.diamond.run [.registerType 5], 1, 2, ['B'], 5,
    reachable_run Ex.diamond_reachable _ (by decide), by decide, by decide, by decide, by decide, by decide⟩

/-- C20, what holds: if the name is new in the container, a successful call returns a class that
    describes the type, and look-up by type gives it. Missing: names already taken (`C20_false`). -/
theorem C20_partial {rank} {w : World} (h : Reachable rank w) {o p : Ptr} {n : Str} {t : TypeId}
    (ho : w.isContainer o = true) (hnew : ∀ x ∈ (w.cont o .cls).items, x.name ≠ n)
    (hr : (w.createClass o n t).2 = .val (some p)) :
    (w.createClass o n t).1.kind p = some .cls ∧ ((w.createClass o n t).1.cls p).typeId = t ∧
    (w.createClass o n t).1.find t = some p := by
  have i := Inv.reachable h
  have hg : (w.cont o .cls).get n = none := (i.wf o .cls).get_none n |>.2 (.inr hnew)
  simp only [createClass, getItem_val ho, hg, Option.map_none] at hr ⊢
  cases hv : w.valid t with
  | false => simp [hv] at hr
  | true =>
    cases hm : w.metaClass t with
    | some q => simp [hv, hm] at hr
    | none =>
      simp only [hv, hm, Bool.not_true, Bool.false_eq_true, if_false, Option.isSome_none] at hr ⊢
      have hlook : (fun w : World => w.getItem o .cls n) w = .val none := by simp [getItem_val ho, hg]
      rcases getOrCreate_cases w o .cls n t (fun w => w.getItem o .cls n)
        (fun w p => { w with metaClass := upd w.metaClass t (some p) }) (stored_cls w o n t) with
        ⟨h1, h⟩ | ⟨h1, h2, h⟩ | ⟨h1, h2, h⟩
      · exact absurd hlook h1
      · rw [h] at hr ⊢
        simp only [Res.val.injEq, Option.some.injEq] at hr
        subst hr
        simp [created_kind, created_cls, find, created_valid, created_metaClass, hv]
      · rw [i.add_succeeds o ho .cls n t hnew] at h2; cases h2

/-- C20, in the case of a taken name: the existing class is returned, whatever its type. -/
theorem C20_taken_name {rank} {w : World} (h : Reachable rank w) {o : Ptr} {n : Str} (t : TypeId)
    {x : Item} (hn : n ≠ []) (hx : x ∈ (w.cont o .cls).items) (e : x.name = n) :
    w.createClass o n t = (w, .val (some x.ptr)) := by
  have i := Inv.reachable h
  have ho := (i.items _ _ _ hx).1
  have hg : (w.cont o .cls).get n = some x := ((i.wf o .cls).get_iff n x).2 ⟨hn, hx, e⟩
  simp [createClass, getItem_val ho, hg]

example : (∀ x ∈ (Ex.diamond.cont 1 .cls).items, x.name ≠ ['E']) ∧
    ((Ex.diamond.run [.registerType 5]).createClass 1 ['E'] 5).2 = .val (some 10) := by decide

/-! ### C30 -/

/-- C30 is false: the derived class cannot get its own method when a base has one of that signature;
    the call returns the base's method and nothing is defined. -/
theorem C30_false : ∃ (w : World) (d m : Ptr) (sig : Str), Reachable id w ∧ w.kind d = some .cls ∧
    (∀ x ∈ (w.cont d .method).items, x.name ≠ sig) ∧
    (w.createMethod d sig true).2 = .val (some m) ∧
    (w.createMethod d sig true).1.owner m ≠ some d ∧
    ((w.createMethod d sig true).1.cont d .method).items = (w.cont d .method).items :=
  ⟨Ex.diamond, 5, 6, ['f', '(', ')'], Ex.diamond_reachable, by decide, by decide, by decide, by decide,
    by decide⟩

/-- the same for properties -/
theorem C30_false_property : ∃ (w : World) (d m : Ptr) (n : Str), Reachable id w ∧
    w.kind d = some .cls ∧ (∀ x ∈ (w.cont d .property).items, x.name ≠ n) ∧
    (w.createProperty d n true).2 = .val (some m) ∧
    (w.createProperty d n true).1.owner m ≠ some d ∧
    ((w.createProperty d n true).1.cont d .property).items = (w.cont d .property).items :=
  ⟨Ex.diamond, 5, 7, ['p'], Ex.diamond_reachable, by decide, by decide, by decide, by decide, by decide⟩

/-- The defect in general: whenever look-up with that signature already finds a method (own or
    inherited), nothing is defined and that method is returned. -/
theorem C30_never_overrides {rank} {w : World} (_ : Reachable rank w) {d m : Ptr} {sig : Str}
    (hm : w.getMethod d sig = .val (some m)) :
    w.createMethod d sig true = (w, .val (some m)) := by
  simp [createMethod, World.getOrCreate, hm]

/-- C30, what holds: if no ancestor has a method of that signature, the derived class owns the new one
    and look-up yields it. Missing: the overriding case (`C30_false`). -/
theorem C30_method_partial {rank} {w : World} (h : Reachable rank w) {d : Ptr} {sig : Str}
    (hd : w.kind d = some .cls) (hn : sig ≠ [])
    (hno : ∀ a m, Reaches w d a → ¬ OwnMethod w sig a m) :
    ∃ m, (w.createMethod d sig true).2 = .val (some m) ∧
      (w.createMethod d sig true).1.owner m = some d ∧
      (w.createMethod d sig true).1.getMethod d sig = .val (some m) ∧
      ⟨m, sig⟩ ∈ ((w.createMethod d sig true).1.cont d .method).items := by
  have i := Inv.reachable h
  have ho : w.isContainer d = true := by simp [isContainer, hd]
  have hlook : w.getMethod d sig = .val none := by
    obtain ⟨r, e, h1, _⟩ := i.classMethodF_spec sig hn w.depth d hd (below_lt_depth _ _ _)
    simp only [getMethod, if_neg hn, hd]
    rw [e]
    cases r with
    | none => rfl
    | some m =>
      obtain ⟨a, ha, hb⟩ := Finds.exists_own i (h1 m rfl)
      exact absurd hb (hno a m ha)
  rcases C17_method h ho hn with ⟨p, h1, _⟩ | ⟨_, p, h1, h2, h3⟩
  · exact absurd (hlook.symm.trans h1) (by simp)
  · exact ⟨p, h1, h2.owner, h3, by rw [h2.items]; simp⟩

theorem C30_property_partial {rank} {w : World} (h : Reachable rank w) {d : Ptr} {n : Str}
    (hd : w.kind d = some .cls) (hn : n ≠ [])
    (hno : ∀ a m, Reaches w d a → ¬ OwnProperty w n a m) :
    ∃ m, (w.createProperty d n true).2 = .val (some m) ∧
      (w.createProperty d n true).1.owner m = some d ∧
      (w.createProperty d n true).1.getProperty d n = .val (some m) ∧
      ⟨m, n⟩ ∈ ((w.createProperty d n true).1.cont d .property).items := by
  have i := Inv.reachable h
  have ho : w.isContainer d = true := by simp [isContainer, hd]
  have hlook : w.getProperty d n = .val none := by
    obtain ⟨r, e, h1, _⟩ := i.classPropertyF_spec n hn w.depth d hd (below_lt_depth _ _ _)
    simp only [getProperty, hd]
    rw [e]
    cases r with
    | none => rfl
    | some m =>
      obtain ⟨a, ha, hb⟩ := Finds.exists_own i (h1 m rfl)
      exact absurd hb (hno a m ha)
  rcases C17_property h ho hn with ⟨p, h1, _⟩ | ⟨_, p, h1, h2, h3⟩
  · exact absurd (hlook.symm.trans h1) (by simp)
  · exact ⟨p, h1, h2.owner, h3, by rw [h2.items]; simp⟩

example : ∃ m, (Ex.diamond.createMethod 5 ['h', '(', ')'] true).2 = .val (some m) ∧
    (Ex.diamond.createMethod 5 ['h', '(', ')'] true).1.owner m = some 5 := ⟨10, by decide, by decide⟩

/-! ### C31 -/

/-- C31: a refused base declaration throws the documented exception and changes nothing at all. -/
theorem C31_refused_unchanged {rank} {w : World} (h : Reachable rank w) {this : Ptr}
    (hk : w.kind this = some .cls) (t : TypeId) (c : Caster) :
    (w.valid t = false → w.addBaseClass this t c = (w, .throw .invalidTypeId)) ∧
    (w.valid t = true → w.find t = none → w.addBaseClass this t c = (w, .throw .unregisteredClass)) ∧
    (∀ e, (w.addBaseClass this t c).2 = .throw e → (w.addBaseClass this t c).1 = w) := by
  have i := Inv.reachable h
  rcases addBaseClass_eq i this hk t c with ⟨h1, h2⟩ | ⟨h1, h3, h2⟩ | ⟨b, h1, h3, h2, _⟩
  · exact ⟨fun _ => h2, fun h => (by rw [h1] at h; cases h), fun e _ => (by rw [h2])⟩
  · exact ⟨fun h => (by rw [h1] at h; cases h), fun _ _ => h2, fun e _ => (by rw [h2])⟩
  · refine ⟨fun h => (by rw [h1] at h; cases h), fun _ h => (by simp [find, h1, h3] at h), fun e he => ?_⟩
    rw [h2] at he; cases he

example : (Ex.diamond.addBaseClass 5 9 id).2 = .throw .invalidTypeId ∧
    ((Ex.diamond.run [.registerType 9]).addBaseClass 5 9 id).2 = .throw .unregisteredClass ∧
    (Ex.diamond.addBaseClass 5 1 id).2 = .val () := by decide

/-! ### C59 -/

theorem later_grows {rank} {w w' : World} (h : Reachable rank w) (l : Later rank w w') :
    Reachable rank w' ∧ Grows w w' := by
  induction l with
  | refl => exact ⟨h, .refl w⟩
  | step op _ hl hu hd ih =>
    exact ⟨.step op ih.1 hl hu hd, ih.2.trans ((Inv.reachable ih.1).grows_step op hl)⟩
  | missed o k n _ ho hk ih =>
    exact ⟨.missed o k n ih.1 ho hk, ih.2.trans ((Inv.reachable ih.1).grows_missed o ho k hk n)⟩

/-- C59 for namespaces, classes and enums by name, classes by type, and constructors. -/
theorem C59_items_stable {rank} {w w' : World} (h : Reachable rank w) (l : Later rank w w') (c : Ptr) :
    (∀ k n p, w.getItem c k n = .val (some p) → w'.getItem c k n = .val (some p)) ∧
    (∀ t p, w.find t = some p → w'.find t = some p) ∧
    (∀ q p, w.getConstructor c q = .val (some p) → w'.getConstructor c q = .val (some p)) := by
  obtain ⟨h', g⟩ := later_grows h l
  have i := Inv.reachable h
  have i' := Inv.reachable h'
  refine ⟨fun k n p hg => ?_, fun t p hf => ?_, fun q p hg => ?_⟩
  · have hc : w.isContainer c = true := by
      cases e : w.isContainer c with
      | true => rfl
      | false => rw [getItem_ub e] at hg; cases hg
    obtain ⟨h1, h2⟩ := (i.getItem_some hc).1 hg
    obtain ⟨s, hs⟩ := g.items c k hc
    exact (i'.getItem_some (g.isContainer hc)).2 ⟨h1, by rw [hs]; exact List.mem_append_left _ h2⟩
  · unfold find at hf ⊢
    split at hf
    · rename_i hv
      rw [if_pos (g.valid t hv)]; exact g.metaClass t p hf
    · cases hf
  · unfold getConstructor at hg ⊢
    split at hg
    · rename_i hc
      rw [if_pos (g.isContainer hc)]
      obtain ⟨s, hs⟩ := g.items c .constructor hc
      rw [hs]
      split at hg
      · cases hg
      · cases hg
      · rename_i it e
        rw [findMethod_append e]
        exact hg
    · cases hg

/-- C59 for methods and properties found in the container itself (all of them, in a namespace).
    Missing: members found in a base class (`C59_false_inherited`). -/
theorem C59_own_members_partial {rank} {w w' : World} (h : Reachable rank w) (l : Later rank w w')
    (c : Ptr) (n : Str) (hn : n ≠ []) (m : Ptr) (hc : w.isContainer c = true) :
    (OwnMethod w n c m → w.getMethod c n = .val (some m) ∧ w'.getMethod c n = .val (some m)) ∧
    (OwnProperty w n c m → w.getProperty c n = .val (some m) ∧ w'.getProperty c n = .val (some m)) := by
  obtain ⟨h', g⟩ := later_grows h l
  have i := Inv.reachable h
  have i' := Inv.reachable h'
  have hc' := g.isContainer hc
  constructor
  · intro ho
    obtain ⟨r, e, hr⟩ := ownMethod_spec w c n
    have hrm := (hr m).2 ho
    subst hrm
    refine ⟨getMethod_of_own hc hn e, getMethod_of_own hc' hn ?_⟩
    obtain ⟨s, hs⟩ := g.items c .method hc
    unfold ownMethod at e ⊢
    rw [hs]
    split at e
    · cases e
    · cases e
    · rename_i it e'
      rw [findMethod_append e']
      exact e
  · intro ho
    refine ⟨getProperty_of_own hc hn ((i.ownProperty_spec c n hn m).2 ho),
      getProperty_of_own hc' hn ((i'.ownProperty_spec c n hn m).2 ?_)⟩
    obtain ⟨s, hs⟩ := g.items c .property hc
    obtain ⟨it, h1, h2⟩ := ho
    exact ⟨it, by rw [hs]; exact List.mem_append_left _ h1, h2⟩

/-- in a namespace every successful method look-up is stable -/
theorem C59_namespace_methods {rank} {w w' : World} (h : Reachable rank w) (l : Later rank w w')
    (c : Ptr) (n : Str) (m : Ptr) (hc : w.kind c = some .nmspace)
    (hm : w.getMethod c n = .val (some m)) : w'.getMethod c n = .val (some m) := by
  have hn : n ≠ [] := by rintro rfl; simp [getMethod] at hm
  have ho : w.isContainer c = true := by simp [isContainer, hc]
  refine ((C59_own_members_partial h l c n hn m ho).1 ?_).2
  simp only [getMethod, if_neg hn, hc] at hm
  obtain ⟨r, e, hr⟩ := ownMethod_spec w c n
  rw [e] at hm
  injection hm with hm
  exact (hr m).1 hm

/-- C59 is false for inherited members: a later definition in an earlier base changes the answer. -/
theorem C59_false_inherited : ∃ (w : World) (op : Op) (c m m' : Ptr) (n : Str),
    Reachable id w ∧ Legal id w op ∧ w.kind c = some .cls ∧
    w.getMethod c n = .val (some m) ∧ (w.step op).1.getMethod c n = .val (some m') ∧ m ≠ m' :=
  ⟨Ex.twoBases, .createMethod 2 ['f', '(', ')'] true, 4, 5, 6, ['f', '(', ')'], Ex.twoBases_reachable,
    trivial, by decide, by decide, by decide, by decide⟩

example : Later id World.init Ex.diamond ∧ OwnMethod Ex.diamond ['f'] 2 6 := by
  refine ⟨?_, ⟨⟨6, ['f', '(', ')']⟩, rfl, [], [], rfl, .inr ⟨[')'], rfl, by decide⟩, by simp⟩⟩
  have : ∀ (w : World) (ops : List Op), okRun id w ops = true → Later id World.init w →
      Later id World.init (w.run ops) := by
    intro w ops
    induction ops generalizing w with
    | nil => exact fun _ h => h
    | cons op ops ih =>
      intro ho hl
      simp only [okRun, Bool.and_eq_true] at ho
      obtain ⟨⟨h1, h2⟩, h3⟩ := ho
      refine ih _ h3 (.step op hl ?_ ?_ ?_)
      · cases op <;> simp_all [Legal]
      · intro e; rw [e] at h2; cases h2
      · intro e; rw [e] at h2; cases h2
  exact this _ Ex.diamondOps (by decide) .refl

end Rtti.Props
