import Verif.Props.Classes
import Verif.Lemmas.MetaCast
/-
C56: `meta_cast` is a checked dynamic cast.
-/
set_option autoImplicit false
namespace Rtti.Props
open Rtti Spec World MetaCast

/-- C56: null gives null, and nothing changes. -/
theorem C56_null (ov : Overrider) (hasInfo : Bool) (to from_ : TypeId) (w : World) :
    constPtr ov hasInfo to from_ w none = (w, .val 0) ∧ mutPtr ov hasInfo to from_ w none = (w, .val 0) := by
  cases hasInfo <;> simp [constPtr, mutPtr, mutInfo, constInfo, constPlain, mutPlain, ptrOf]

/-- C56: the constness of the source does not change the result. -/
theorem C56_const (ov : Overrider) (hasInfo : Bool) (to from_ : TypeId) (w : World) (p : Option Obj) (o : Obj) :
    mutPtr ov hasInfo to from_ w p = constPtr ov hasInfo to from_ w p ∧
    mutRef ov hasInfo to from_ w o = constRef ov hasInfo to from_ w o := by
  have h : mutPtr ov hasInfo to from_ w = constPtr ov hasInfo to from_ w := by
    funext p
    cases hasInfo <;> simp [mutPtr, constPtr, mutInfo, mutPlain, constPlain]
  exact ⟨by rw [h], by rw [mutRef, constRef, h]⟩

/-- C56: without class information only the identical type succeeds, with the pointer itself. -/
theorem C56_plain (ov : Overrider) {to from_ : TypeId} (w : World) {o : Obj} (ho : o.self ≠ 0) :
    ∃ a, constPtr ov false to from_ w (some o) = (w, .val a) ∧ (a ≠ 0 ↔ to = from_) ∧ (to = from_ → a = o.self) := by
  refine ⟨constPlain to from_ (some o), rfl, ?_, fun h => by simp [constPlain, h, ptrOf]⟩
  by_cases h : to = from_ <;> simp [constPlain, h, ptrOf, ho]

/-- C56, for any class that a virtual `classInfo()` may report: the cast always answers; the answer is the upcast of
    that class's subobject if the target is that class or one of its ancestors, null otherwise (also if one of the two
    classes is not registered). What is registered stays as it is. -/
theorem C56_info {rank} {w : World} (h : Reachable rank w) (ov : Overrider) {o : Obj} (hv : (ov o.dyn).1 ≠ 0)
    {to : TypeId} (hto : to ≠ 0) (from_ : TypeId) :
    ∃ w' a, constPtr ov true to from_ w (some o) = (w', .val a) ∧ Reachable rank w' ∧
      w'.find = w.find ∧ w'.kind = w.kind ∧ w'.cls = w.cls ∧
      (∀ d c, w.find (ov o.dyn).1 = some d → w.find to = some c → Reaches w d c →
        ∃ fs, LeftPath w d c fs ∧ a = applyCasts fs ((ov o.dyn).2 o.whole)) ∧
      ((¬ ∃ d c, w.find (ov o.dyn).1 = some d ∧ w.find to = some c ∧ Reaches w d c) → a = 0) := by
  obtain ⟨r1, f1, k1, c1⟩ := register h hv
  obtain ⟨r2, f2, k2, c2⟩ := register r1 hto
  rw [f1] at f2
  rw [k1] at k2
  rw [c1] at c2
  have e : constPtr ov true to from_ w (some o) =
      match w.find (ov o.dyn).1, w.find to with
      | some f, some t => ((((w.step (.registerType (ov o.dyn).1)).1).step (.registerType to)).1,
          ((((w.step (.registerType (ov o.dyn).1)).1).step (.registerType to)).1).cast f (some t) ((ov o.dyn).2 o.whole))
      | _, _ => ((((w.step (.registerType (ov o.dyn).1)).1).step (.registerType to)).1, .val 0) := by
    simp only [constPtr, if_true, constInfo, classInfo]
    rw [f1, f2]
    cases w.find (ov o.dyn).1 <;> cases w.find to <;> rfl
  revert e
  generalize (((w.step (.registerType (ov o.dyn).1)).1).step (.registerType to)).1 = w' at *
  intro e
  cases hd : w.find (ov o.dyn).1 with
  | none =>
    rw [hd] at e
    exact ⟨w', 0, e, r2, f2, k2, c2, by simp, fun _ => rfl⟩
  | some d =>
    cases hc : w.find to with
    | none =>
      rw [hd, hc] at e
      exact ⟨w', 0, e, r2, f2, k2, c2, by simp, fun _ => rfl⟩
    | some c =>
      rw [hd, hc] at e
      have hk : w'.kind d = some .cls := by rw [k2]; exact ((Inv.reachable h).find_cls hd).1
      obtain ⟨u1, u2, _⟩ := C27_upcast r2 hk c ((ov o.dyn).2 o.whole)
      by_cases hr : Reaches w d c
      · obtain ⟨fs, p1, _, _, p2⟩ := u1 (reaches_congr f2 c2 hr)
        refine ⟨w', _, e.trans (by dsimp only; rw [p2]), r2, f2, k2, c2, ?_, fun hn => absurd ⟨d, c, rfl, rfl, hr⟩ hn⟩
        rintro _ _ ⟨⟩ ⟨⟩ _
        exact ⟨fs, leftPath_congr f2.symm c2.symm p1, rfl⟩
      · refine ⟨w', 0, e.trans (by dsimp only; rw [u2 fun x => hr (reaches_congr f2.symm c2.symm x)]), r2, f2, k2, c2, ?_, fun _ => rfl⟩
        rintro _ _ ⟨⟩ ⟨⟩ hr'
        exact absurd hr' hr

/-- C56: with `DECLARE_CLASSINFO` in the object's own class, that class registered, and cast functions that keep
    non-null addresses non-null: the result is non-null exactly when the target is a registered class that the dynamic
    class is or derives from, and then it is the upcast of the complete object. -/
theorem C56_dynamic {rank} {w : World} (h : Reachable rank w) (ov : Overrider) {o : Obj} {d : Ptr}
    (hov : (ov o.dyn).1 = o.dyn ∧ (ov o.dyn).2 = id) (hdyn : o.dyn ≠ 0) (hd : w.find o.dyn = some d)
    (hnn : ∀ p, w.kind p = some .cls → ∀ x ∈ (w.cls p).bases, ∀ a, a ≠ 0 → x.2 a ≠ 0) (ha : o.whole ≠ 0)
    {to : TypeId} (hto : to ≠ 0) (from_ : TypeId) :
    ∃ w' a, constPtr ov true to from_ w (some o) = (w', .val a) ∧
      (a ≠ 0 ↔ ∃ c, w.find to = some c ∧ Reaches w d c) ∧
      (∀ c, w.find to = some c → Reaches w d c →
        w.cast d (some c) o.whole = .val a ∧ ∃ fs, LeftPath w d c fs ∧ a = applyCasts fs o.whole) ∧
      (to = o.dyn → a = o.whole) := by
  obtain ⟨w', a, e, _, _, _, _, h1, h2⟩ := C56_info h ov (by rw [hov.1]; exact hdyn) hto from_
  rw [hov.1, hov.2] at h1
  rw [hov.1] at h2
  have hk := ((Inv.reachable h).find_cls hd).1
  have key : ∀ c, w.find to = some c → Reaches w d c →
      w.cast d (some c) o.whole = .val a ∧ ∃ fs, LeftPath w d c fs ∧ a = applyCasts fs o.whole := by
    intro c hc hr
    obtain ⟨fs, p, rfl⟩ := h1 d c hd hc hr
    obtain ⟨gs, _, _, u, v⟩ := (C27_upcast h hk c o.whole).1 hr
    refine ⟨by rw [v, u fs p]; rfl, fs, p, rfl⟩
  refine ⟨w', a, e, ⟨fun hne => ?_, ?_⟩, key, ?_⟩
  · refine Classical.byContradiction fun hn => hne (h2 ?_)
    rintro ⟨d', c, hd', hc, hr⟩
    rw [hd] at hd'
    cases hd'
    exact hn ⟨c, hc, hr⟩
  · rintro ⟨c, hc, hr⟩ h0
    have hcast := (key c hc hr).1
    rw [h0] at hcast
    exact (C27_null_iff h hk hnn c ha).1 hcast hr
  · rintro rfl
    have := (key d hd (.refl d)).1
    rw [(C27_upcast h hk d o.whole).2.2.2] at this
    exact (by simpa using this.symm)

/-- C56: if the target is a unique subobject, the result does not depend on the order of the declarations: it is the
    address any declared path gives. -/
theorem C56_unique {rank} {w : World} (h : Reachable rank w) (ov : Overrider) {o : Obj} {d c : Ptr}
    (hov : (ov o.dyn).1 = o.dyn ∧ (ov o.dyn).2 = id) (hdyn : o.dyn ≠ 0) (hd : w.find o.dyn = some d)
    {to : TypeId} (hto : to ≠ 0) (hc : w.find to = some c) (from_ : TypeId) (hco : Coherent w d c o.whole)
    {fs : List Caster} (hp : Path w d c fs) :
    (constPtr ov true to from_ w (some o)).2 = .val (applyCasts fs o.whole) := by
  obtain ⟨w', a, e, _, _, _, _, h1, _⟩ := C56_info h ov (by rw [hov.1]; exact hdyn) hto from_
  rw [hov.1, hov.2] at h1
  obtain ⟨gs, p, rfl⟩ := h1 d c hd hc (Path.reaches (Inv.reachable h) hp)
  rw [e, hco fs gs hp (LeftPath.path p)]
  rfl

/-- C56: the result does not depend on the static type or the pointer through which the object is seen. -/
theorem C56_static (ov : Overrider) (to from_ from' : TypeId) (w : World) {o o' : Obj} (hd : o.dyn = o'.dyn)
    (hw : o.whole = o'.whole) : constPtr ov true to from_ w (some o) = constPtr ov true to from' w (some o') := by
  simp only [constPtr, if_true, constInfo, classInfo, hd, hw]

/-- C56: the reference form throws `bad_meta_cast` exactly when the pointer form is null and otherwise refers to the
    same object. -/
theorem C56_reference (ov : Overrider) (hasInfo : Bool) (to from_ : TypeId) {w w' : World} {o : Obj} {a : Addr}
    (hp : constPtr ov hasInfo to from_ w (some o) = (w', .val a)) :
    ∃ r, constRef ov hasInfo to from_ w o = (w', r) ∧ (r = .throw .badMetaCast ↔ a = 0) ∧ (a ≠ 0 → r = .ok a) := by
  refine ⟨_, by rw [constRef, hp], ?_, ?_⟩
  · by_cases h : a = 0 <;> simp [deref, Val.Ret.lift, Val.Ret.bind, h]
  · intro h; simp [deref, Val.Ret.lift, Val.Ret.bind, h]

/-! The hierarchy of the examples: `Ex.diamond` has the classes 2 (type 1), 3 (type 2), 4 (type 3), 5 (type 4, derived
from both, the second base at offset 8). -/

/-- every class declares its class information -/
def ExC.all : Overrider := fun t => (t, id)

/- a cross cast: the object of class 5 is seen through its first base; the cast gives the second base -/
example : (constPtr ExC.all true 3 2 Ex.diamond (some ⟨100, 4, 100⟩)).2 = .val 108 ∧
    Ex.diamond.find 4 = some 5 ∧ Ex.diamond.find 3 = some 4 := by decide
/- a down cast succeeds for the right object only -/
example : (constPtr ExC.all true 4 3 Ex.diamond (some ⟨108, 4, 100⟩)).2 = .val 100 ∧
    (constPtr ExC.all true 4 3 Ex.diamond (some ⟨108, 3, 108⟩)).2 = .val 0 ∧
    (constRef ExC.all true 4 3 Ex.diamond ⟨108, 3, 108⟩).2 = .throw .badMetaCast ∧
    (constRef ExC.all true 4 3 Ex.diamond ⟨108, 4, 100⟩).2 = .ok 100 := by decide
/- without class information -/
example : (constPtr ExC.all false 4 3 Ex.diamond (some ⟨108, 4, 100⟩)).2 = .val 0 ∧
    (constPtr ExC.all false 3 3 Ex.diamond (some ⟨108, 4, 100⟩)).2 = .val 108 := by decide

/-- C56 needs `DECLARE_CLASSINFO` in every class: an object of class 5 that does not declare it is taken for its first
    base, so the cast to its own class and the cross cast are null, though both classes are registered. -/
theorem C56_macro_false :
    let ov : Overrider := fun t => if t = 4 then (2, id) else (t, id)
    let o : Obj := ⟨100, 4, 100⟩
    Ex.diamond.find o.dyn = some 5 ∧ (constPtr ov true 4 2 Ex.diamond (some o)).2 = .val 0 ∧
    (constPtr ov true 3 2 Ex.diamond (some o)).2 = .val 0 ∧
    (constPtr ov true 2 2 Ex.diamond (some o)).2 = .val 100 := by decide

/-- C56 needs the dynamic class to be registered: otherwise even the cast to a registered base the object is already
    seen as is null. -/
theorem C56_unregistered_false :
    (constPtr ExC.all true 2 2 Ex.diamond (some ⟨100, 9, 100⟩)).2 = .val 0 ∧
    (constRef ExC.all true 2 2 Ex.diamond ⟨100, 9, 100⟩).2 = .throw .badMetaCast := by decide

end Rtti.Props
